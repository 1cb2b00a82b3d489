import Verif.Proof.DdCluster3
import Mathlib.Tactic.IntervalCases

set_option linter.unusedSectionVars false

namespace H2.CB
open H2 Spec
variable {K : Type} [Field K] [LinearOrder K] [IsStrictOrderedRing K] {F : Type}

/-! ### blocks -/

theorem inCl_son {t s : Cluster K} (h : Consistent t) (hs : s ∈ t.sons) {p : Nat} (hp : InCl s p) : InCl t p := by
  cases t with
  | mk i ss =>
    have h1 := (consistent_mk.1 h).1 (by rintro rfl; cases hs)
    have := tiles_range _ _ _ h1 s hs
    unfold InCl at *
    simp only [Cluster.off_mk, Cluster.size_mk]
    omega

/-- `t` belongs to an interface -/
def AllTwo (t : Cluster K) : Prop := ∀ u ∈ nodes t, u.info.type = 2

theorem allTwo_son {t s : Cluster K} (h : AllTwo t) (hs : s ∈ t.sons) : AllTwo s := by
  cases t with
  | mk i ss => exact fun u hu => (forall_nodes_mk.1 h).2 s hs u hu

/-- neither direction is connected -/
def Apart (c : Nat → Nat → Prop) (t s : Cluster K) : Prop := ∀ p q, InCl t p → InCl s q → ¬ c p q

theorem dd_sons {c : Nat → Nat → Prop} (hsym : ∀ p q, c p q → c q p) {t : Cluster K} (h : DdTree c t) (i j : Fin t.sons.length) :
    (i = j ∧ DdTree c t.sons[i]) ∨ AllTwo t.sons[i] ∨ AllTwo t.sons[j] ∨ Apart c t.sons[i] t.sons[j] := by
  obtain ⟨i, hi⟩ := i
  obtain ⟨j, hj⟩ := j
  cases h with
  | leaf h => exact absurd hi (Nat.not_lt_zero _)
  | one h1 h2 =>
    simp only [Cluster.sons_mk, List.length_cons, List.length_nil] at hi hj
    interval_cases i; interval_cases j
    exact .inl ⟨rfl, h2⟩
  | two h1 h2 h3 h4 =>
    simp only [Cluster.sons_mk, List.length_cons, List.length_nil] at hi hj
    interval_cases i <;> interval_cases j
    · exact .inl ⟨rfl, h2⟩
    · exact .inr (.inr (.inr fun p q hp hq hc => h4 q p hq hp (hsym _ _ hc)))
    · exact .inr (.inr (.inr h4))
    · exact .inl ⟨rfl, h3⟩
  | three h1 h2 h3 h4 h5 h6 =>
    simp only [Cluster.sons_mk, List.length_cons, List.length_nil] at hi hj
    interval_cases i <;> interval_cases j
    · exact .inl ⟨rfl, h2⟩
    · exact .inr (.inr (.inr fun p q hp hq hc => h4 q p hq hp (hsym _ _ hc)))
    · exact .inr (.inr (.inl h5))
    · exact .inr (.inr (.inr h4))
    · exact .inl ⟨rfl, h3⟩
    · exact .inr (.inr (.inl h5))
    · exact .inr (.inl h5)
    · exact .inr (.inl h5)
    · exact .inr (.inl h5)

/-- what is known about the pairs of clusters the builders meet -/
def Pair (c : Nat → Nat → Prop) (rc cc : CRef K) : Prop :=
  (rc = cc ∧ DdTree c rc.cl) ∨ AllTwo rc.cl ∨ AllTwo cc.cl ∨ Apart c rc.cl cc.cl

theorem pair_row {c : Nat → Nat → Prop} {rc cc : CRef K} (h : Pair c rc cc) (hc : Consistent rc.cl) (i : Fin rc.nsons) (hz : cc.nsons = 0) :
    Pair c (rc.son i) cc := by
  have hm : (rc.son i).cl ∈ rc.cl.sons := List.getElem_mem i.2
  rcases h with ⟨rfl, -⟩ | h | h | h
  · exact absurd i.2 (by omega)
  · exact .inr (.inl (allTwo_son h hm))
  · exact .inr (.inr (.inl h))
  · exact .inr (.inr (.inr fun p q hp hq => h p q (inCl_son hc hm hp) hq))

theorem pair_col {c : Nat → Nat → Prop} {rc cc : CRef K} (h : Pair c rc cc) (hc : Consistent cc.cl) (j : Fin cc.nsons) (hz : rc.nsons = 0) :
    Pair c rc (cc.son j) := by
  have hm : (cc.son j).cl ∈ cc.cl.sons := List.getElem_mem j.2
  rcases h with ⟨rfl, -⟩ | h | h | h
  · exact absurd j.2 (by omega)
  · exact .inr (.inl h)
  · exact .inr (.inr (.inl (allTwo_son h hm)))
  · exact .inr (.inr (.inr fun p q hp hq => h p q hp (inCl_son hc hm hq)))

theorem pair_both {c : Nat → Nat → Prop} (hsym : ∀ p q, c p q → c q p) {rc cc : CRef K} (h : Pair c rc cc) (hr : Consistent rc.cl)
    (hc : Consistent cc.cl) (i : Fin rc.nsons) (j : Fin cc.nsons) : Pair c (rc.son i) (cc.son j) := by
  have hm : (rc.son i).cl ∈ rc.cl.sons := List.getElem_mem i.2
  have hn : (cc.son j).cl ∈ cc.cl.sons := List.getElem_mem j.2
  rcases h with ⟨rfl, h⟩ | h | h | h
  · rcases dd_sons hsym h i j with ⟨rfl, h1⟩ | h1 | h1 | h1
    · exact .inl ⟨rfl, h1⟩
    · exact .inr (.inl h1)
    · exact .inr (.inr (.inl h1))
    · exact .inr (.inr (.inr h1))
  · exact .inr (.inl (allTwo_son h hm))
  · exact .inr (.inr (.inl (allTwo_son h hn)))
  · exact .inr (.inr (.inr fun p q hp hq => h p q (inCl_son hr hm hp) (inCl_son hc hn hq)))

/-- what we claim for every block -/
def BlkOK (adm : Cluster K → Cluster K → Bool) (c : Nat → Nat → Prop) (s : Block K) : Prop :=
  (s.a = true ↔ adm s.rc.cl s.cc.cl = true ∨ (s.rc.cl.info.type = 1 ∧ s.cc.cl.info.type = 1 ∧ s.rc.path ≠ s.cc.path)) ∧
  (s.a = true → s.rsons * s.csons = 0) ∧
  (s.a = true → adm s.rc.cl s.cc.cl = true ∨ ∀ p q, Covers s p q → ¬ c p q)

theorem admissibleDd_iff (adm : Cluster K → Cluster K → Bool) (s t : CRef K) :
    admissibleDd adm s t = true ↔ adm s.cl t.cl = true ∨ (s.cl.info.type = 1 ∧ t.cl.info.type = 1 ∧ s.path ≠ t.path) := by
  unfold admissibleDd CRef.same
  simp only [Bool.or_eq_true, Bool.and_eq_true, decide_eq_true_eq, Bool.not_eq_true', decide_eq_false_iff_not]
  constructor
  · rintro (h | ⟨⟨h1, h2⟩, h3⟩)
    · exact .inl h
    · exact .inr ⟨h1, by rw [← h2, h1], h3⟩
  · rintro (h | ⟨h1, h2, h3⟩)
    · exact .inl h
    · exact .inr ⟨⟨h1, by rw [h1, h2]⟩, h3⟩

theorem self_type {t : Cluster K} (h : AllTwo t) : t.info.type = 2 := h t (mem_nodes_self t)

theorem blk_adm {adm : Cluster K → Cluster K → Bool} {c : Nat → Nat → Prop} {rc cc : CRef K} (h : Pair c rc cc)
    (ha : admissibleDd adm rc cc = true) : ∀ s ∈ bnodes (Block.leaf rc cc true), BlkOK adm c s := by
  unfold Block.leaf Block.build
  rw [forall_bnodes_mk]
  refine ⟨⟨?_, fun _ => rfl, fun _ => ?_⟩, fun i => i.elim0⟩
  · simp only [Block.a, true_iff]
    exact (admissibleDd_iff adm rc cc).1 ha
  · rcases (admissibleDd_iff adm rc cc).1 ha with h1 | ⟨h1, h2, h3⟩
    · exact .inl h1
    · right
      rcases h with ⟨rfl, -⟩ | h | h | h
      · exact absurd rfl h3
      · rw [self_type h] at h1; cases h1
      · rw [self_type h] at h2; cases h2
      · rintro p q ⟨k1, k2, k3, k4⟩
        exact h p q ⟨k1, k2⟩ ⟨k3, k4⟩

theorem blk_no {adm : Cluster K → Cluster K → Bool} {c : Nat → Nat → Prop} {rc cc : CRef K} {d m n : Nat} {son : Fin m → Fin n → Block K}
    (ha : ¬ admissibleDd adm rc cc = true) : BlkOK adm c (.mk rc cc false d m n son) := by
  refine ⟨?_, fun h => (by cases h), fun h => (by cases h)⟩
  simp only [Block.a, Bool.false_eq_true, false_iff]
  exact fun h => ha ((admissibleDd_iff adm rc cc).2 h)

theorem nonstrictP_ok (adm : Cluster K → Cluster K → Bool) {c : Nat → Nat → Prop} (hsym : ∀ p q, c p q → c q p) (rc cc : CRef K)
    (h : Pair c rc cc) (hr : Consistent rc.cl) (hc : Consistent cc.cl) :
    (∀ s ∈ bnodes (nonstrictP (admissibleDd adm) rc cc), BlkOK adm c s) ∧ BlockTree rc cc (nonstrictP (admissibleDd adm) rc cc) := by
  rw [nonstrictP]
  split
  · rename_i ha
    exact ⟨blk_adm h ha, leaf_blockTree ..⟩
  · rename_i ha
    split
    · refine ⟨?_, leaf_blockTree ..⟩
      unfold Block.leaf Block.build
      rw [forall_bnodes_mk]
      exact ⟨blk_no ha, fun i => i.elim0⟩
    · rename_i h0
      have h1 : rc.nsons ≠ 0 := fun e => h0 (by rw [e, Nat.zero_mul])
      have h2 : cc.nsons ≠ 0 := fun e => h0 (by rw [e, Nat.mul_zero])
      have ih := fun i j => nonstrictP_ok adm hsym (rc.son i) (cc.son j) (pair_both hsym h hr hc i j) (consistent_son hr i) (consistent_son hc j)
      refine ⟨?_, .both (by omega) (by omega) fun i j => (ih i j).2⟩
      unfold Block.build
      rw [forall_bnodes_mk]
      exact ⟨blk_no ha, fun i j => (ih i j).1⟩
termination_by sizeOf rc.cl
decreasing_by exact CRef.sizeOf_son _ _

theorem strictP_ok (adm : Cluster K → Cluster K → Bool) {c : Nat → Nat → Prop} (hsym : ∀ p q, c p q → c q p) (rc cc : CRef K)
    (h : Pair c rc cc) (hr : Consistent rc.cl) (hc : Consistent cc.cl) :
    (∀ s ∈ bnodes (strictP (admissibleDd adm) rc cc), BlkOK adm c s) ∧ BlockTree rc cc (strictP (admissibleDd adm) rc cc) := by
  rw [strictP]
  split
  · rename_i ha
    exact ⟨blk_adm h ha, leaf_blockTree ..⟩
  · rename_i ha
    split
    · rename_i h1
      split
      · refine ⟨?_, leaf_blockTree ..⟩
        unfold Block.leaf Block.build
        rw [forall_bnodes_mk]
        exact ⟨blk_no ha, fun i => i.elim0⟩
      · have ih := fun j => strictP_ok adm hsym rc (cc.son j) (pair_col h hc j h1) hr (consistent_son hc j)
        refine ⟨?_, .cols (by omega) fun i j => (ih j).2⟩
        unfold Block.build
        rw [forall_bnodes_mk]
        exact ⟨blk_no ha, fun i j => (ih j).1⟩
    · rename_i h1
      split
      · rename_i h2
        have ih := fun i => strictP_ok adm hsym (rc.son i) cc (pair_row h hr i h2) (consistent_son hr i) hc
        refine ⟨?_, .rows (by omega) fun i j => (ih i).2⟩
        unfold Block.build
        rw [forall_bnodes_mk]
        exact ⟨blk_no ha, fun i j => (ih i).1⟩
      · have ih := fun i j => strictP_ok adm hsym (rc.son i) (cc.son j) (pair_both hsym h hr hc i j) (consistent_son hr i) (consistent_son hc j)
        refine ⟨?_, .both (by omega) (by omega) fun i j => (ih i j).2⟩
        unfold Block.build
        rw [forall_bnodes_mk]
        exact ⟨blk_no ha, fun i j => (ih i j).1⟩
termination_by sizeOf rc.cl + sizeOf cc.cl
decreasing_by
  all_goals first
    | (have := CRef.sizeOf_son cc j; omega)
    | (have := CRef.sizeOf_son rc i; omega)
    | (have := CRef.sizeOf_son cc j; have := CRef.sizeOf_son rc i; omega)

/-- the builders for conditions that do not compare pointers are special cases -/
theorem nonstrictP_eq (admis : Cluster K → Cluster K → Bool) (rc cc : CRef K) :
    nonstrictP (fun s t => admis s.cl t.cl) rc cc = Block.buildNonstrict admis rc cc := by
  rw [nonstrictP, Block.buildNonstrict]
  split
  · rfl
  · split
    · rfl
    · congr 1
      funext i j
      exact nonstrictP_eq admis (rc.son i) (cc.son j)
termination_by sizeOf rc.cl
decreasing_by exact CRef.sizeOf_son _ _

/-! ### termination -/

theorem leafT_ok (g : Geom K) (ty : Nat) (a : Nat → Nat) (off : Nat) {size : Nat} (hp : 0 < size) : ∃ t, leafT g ty a off size = .ok t := by
  unfold leafT
  rw [cassert_true (decide_eq_true hp)]
  exact ⟨_, rfl⟩

theorem fatherT_ok (g : Geom K) (ty off size : Nat) (s : Cluster K) (ss : List (Cluster K)) : ∃ t, fatherT g ty off size (s :: ss) = .ok t := by
  unfold fatherT
  obtain ⟨t, e⟩ := father_ok g off size s ss
  rw [e]
  exact ⟨_, rfl⟩

theorem adaptiveInterface_ok (g : Geom K) (hdim : 0 < g.dim) (clf : Nat) {dim : Nat} (hd : 2 ≤ dim) : ∀ (f : Nat) (st : St K) (off size lev : Nat),
    0 < size → (2 * size + 1 ≤ f ∨ lev % dim ≠ 0 ∧ 2 * size ≤ f) → ∃ st' t, buildAdaptiveInterface g clf dim f st off size lev = .ok (st', t) := by
  intro f
  induction f with
  | zero => intro st off size lev h1 h2; omega
  | succ f ih =>
    intro st off size lev hp hf
    rw [buildAdaptiveInterface]
    by_cases hclf : clf < size
    · rw [if_pos hclf, if_neg (by omega)]
      by_cases hl : lev % dim ≠ 0
      · rw [if_pos hl]
        dsimp only
        rw [if_neg (by omega)]
        obtain ⟨m1, m2, m3⟩ := maxDir_spec hdim (pointBbox g st off size).hmin (pointBbox g st off size).hmax
        by_cases ha : 0 < (maxDir g.dim (pointBbox g st off size).hmin (pointBbox g st off size).hmax).2
        · rw [if_pos ha]
          rw [m2] at ha
          obtain ⟨p0, p1⟩ := midpoint_split g st off hp _ ha
          rw [if_pos p0, if_pos p1]
          obtain ⟨s, hs⟩ : ∃ s, s = splitLoop (fun i => decide (g.x i (maxDir g.dim (pointBbox g st off size).hmin (pointBbox g st off size).hmax).1 <
            ((pointBbox g st off size).hmax (maxDir g.dim (pointBbox g st off size).hmin (pointBbox g st off size).hmax).1 +
            (pointBbox g st off size).hmin (maxDir g.dim (pointBbox g st off size).hmin (pointBbox g st off size).hmax).1) / 2)) off size
            (pointBbox g st off size).idx := ⟨_, rfl⟩
          have hsum : s.2.1 + s.2.2 = size := by rw [hs]; exact (splitLoop_ok _ _ _ _).sum
          rw [← hs] at p0 p1 ⊢
          obtain ⟨st1, s0, e0⟩ := ih { idx := s.1, hmin := (pointBbox g st off size).hmin, hmax := (pointBbox g st off size).hmax } off s.2.1 (lev + 1) p0 (by omega)
          rw [e0, ok_bind]
          obtain ⟨st2, s1, e1⟩ := ih st1 (off + s.2.1) s.2.2 (lev + 1) p1 (by omega)
          rw [e1, ok_bind]
          obtain ⟨t, et⟩ := fatherT_ok g 2 off size s0 [s1]
          rw [et]
          exact ⟨_, _, rfl⟩
        · rw [if_neg ha]
          have hz : (maxDir g.dim (pointBbox g st off size).hmin (pointBbox g st off size).hmax).2 = 0 := by
            apply le_antisymm (not_lt.1 ha)
            have := m3 0 hdim
            have := (bbox_spec g st off hp 0).2.2.2
            linarith
          rw [cassert_true (decide_eq_true hz), ok_bind]
          obtain ⟨t, et⟩ := leafT_ok g 2 (pointBbox g st off size).idx off hp
          rw [et]
          exact ⟨_, _, rfl⟩
      · rw [if_neg hl]
        have hl2 : (lev + 1) % dim ≠ 0 := by
          rw [Nat.add_mod, show lev % dim = 0 by omega, Nat.zero_add, Nat.mod_mod, Nat.mod_eq_of_lt (by omega)]
          omega
        obtain ⟨st1, s0, e0⟩ := ih st off size (lev + 1) hp (by omega)
        rw [e0, ok_bind]
        obtain ⟨t, et⟩ := fatherT_ok g 2 off size s0 []
        rw [et]
        exact ⟨_, _, rfl⟩
    · rw [if_neg hclf]
      obtain ⟨t, et⟩ := leafT_ok g 2 st.idx off hp
      rw [et]
      exact ⟨_, _, rfl⟩

theorem insep_perm {x : Nat → Nat → K} {dim clf off size : Nat} {c : Nat → Nat → Prop} {a b : Nat → Nat} (h : SegRearranged off size a b)
    (ht : Inseparable x dim clf c a off size) : Inseparable x dim clf c b off size := by
  obtain ⟨S, h1, h2, d, hd, m, ⟨p, hp, hp2⟩, ⟨q, hq, hq2⟩, h5⟩ := ht
  obtain ⟨σ, hs, es⟩ := h.symm
  refine ⟨S.map σ.toEmbedding, ?_, by rwa [Finset.card_map], d, hd, m, ⟨σ p, Finset.mem_map_of_mem _ hp, by rw [← es]; exact hp2⟩,
    ⟨σ q, Finset.mem_map_of_mem _ hq, by rw [← es]; exact hq2⟩, ?_⟩
  · intro i hi
    obtain ⟨k, hk, rfl⟩ := Finset.mem_map.1 hi
    by_contra hc
    have := σ.injective (hs _ hc)
    simp only [Equiv.coe_toEmbedding] at hc this
    rw [this] at hc
    exact hc (h1 k hk)
  · intro i hi hn
    obtain ⟨k, hk, rfl⟩ := Finset.mem_map.1 hi
    simp only [Equiv.coe_toEmbedding] at hn ⊢
    rw [← es] at hn
    obtain ⟨l, hl, h6, h7⟩ := h5 k hk hn
    exact ⟨σ l, Finset.mem_map_of_mem _ hl, by rw [← es]; exact h6, by rw [← es, ← es]; exact h7⟩

theorem insep_sub {x : Nat → Nat → K} {dim clf off size o n : Nat} {c : Nat → Nat → Prop} {a b : Nat → Nat} (h1 : off ≤ o) (h2 : o + n ≤ off + size)
    (e : ∀ i, o ≤ i → i < o + n → b i = a i) (ht : Inseparable x dim clf c b o n) : Inseparable x dim clf c a off size := by
  obtain ⟨S, k1, k2, d, hd, m, ⟨p, hp, hp2⟩, ⟨q, hq, hq2⟩, h5⟩ := ht
  have e' : ∀ i ∈ S, b i = a i := fun i hi => e i (k1 i hi).1 (k1 i hi).2
  refine ⟨S, fun i hi => by have := k1 i hi; omega, k2, d, hd, m, ⟨p, hp, by rw [← e' p hp]; exact hp2⟩, ⟨q, hq, by rw [← e' q hq]; exact hq2⟩, ?_⟩
  intro i hi hn
  rw [← e' i hi] at hn ⊢
  obtain ⟨l, hl, h6, h7⟩ := h5 i hi hn
  exact ⟨l, hl, by rw [← e' l hl]; exact h6, by rw [← e' l hl]; exact h7⟩

/-- what the cut by the midplane yields, in one place -/
theorem cut_spec {g : Geom K} {sp : Sparse F} {flag : Arr Nat} {off size d : Nat} {m : K} {a : Nat → Nat} {r : (Nat → Nat) × Nat × Nat × Arr Nat}
    (hr : SepOK sp flag off size (splitLoop (fun i => decide (g.x i d < m)) off size a).2.1 (splitLoop (fun i => decide (g.x i d < m)) off size a).2.2
      (splitLoop (fun i => decide (g.x i d < m)) off size a).1 r) :
    (∀ i < (splitLoop (fun i => decide (g.x i d < m)) off size a).2.1, g.x (r.1 (off + i)) d < m) ∧
    (∀ i, (splitLoop (fun i => decide (g.x i d < m)) off size a).2.1 ≤ i → i < size → ¬ g.x (r.1 (off + i)) d < m) := by
  have hsp := splitLoop_ok (fun i => decide (g.x i d < m)) off size a
  constructor
  · intro i hi
    rw [hr.perm.outside (by omega)]
    have := hsp.front i hi
    simpa using this
  · intro i h1 h2
    have hsum := hsp.sum
    obtain ⟨k, hk, e⟩ := hr.perm.inside (i := i - (splitLoop (fun i => decide (g.x i d < m)) off size a).2.1) (by omega)
    rw [show off + (splitLoop (fun i => decide (g.x i d < m)) off size a).2.1 + (i - (splitLoop (fun i => decide (g.x i d < m)) off size a).2.1) = off + i by omega] at e
    rw [e, Nat.add_assoc]
    have := hsp.back (_ + k) (Nat.le_add_right _ _) (by omega)
    simpa using this

theorem adaptiveDd_tot (g : Geom K) (hdim : 0 < g.dim) (clf : Nat) {dim : Nat} (hd : 2 ≤ dim) (sp : Sparse F) (flag : Arr Nat) (hs : Safe sp flag)
    (h0 : ∀ c, flag.v c = 0) : ∀ (f : Nat) (st : St K) (off size : Nat), 0 < size → 2 * size + 1 ≤ f → Rows sp st.idx off size →
    (∃ st' t, buildAdaptiveDd g clf dim sp f st flag off size = .ok (st', flag, t)) ∨
    (buildAdaptiveDd g clf dim sp f st flag off size = .error .assertFail ∧ Inseparable g.x g.dim clf (HasPos sp) st.idx off size) := by
  intro f
  induction f with
  | zero => intro st off size h1 h2; omega
  | succ f ih =>
    intro st off size hp hf hb
    rw [buildAdaptiveDd]
    by_cases hclf : clf < size
    · rw [if_pos hclf]
      dsimp only
      rw [if_neg (by omega)]
      obtain ⟨m1, m2, m3⟩ := maxDir_spec hdim (pointBbox g st off size).hmin (pointBbox g st off size).hmax
      by_cases ha : 0 < (maxDir g.dim (pointBbox g st off size).hmin (pointBbox g st off size).hmax).2
      · rw [if_pos ha]
        rw [m2] at ha
        obtain ⟨p0, p1⟩ := midpoint_split g st off hp _ ha
        obtain ⟨d, hd'⟩ : ∃ d, d = (maxDir g.dim (pointBbox g st off size).hmin (pointBbox g st off size).hmax).1 := ⟨_, rfl⟩
        rw [← hd'] at p0 p1 m1 ⊢
        obtain ⟨m, hm⟩ : ∃ m, m = ((pointBbox g st off size).hmax d + (pointBbox g st off size).hmin d) / 2 := ⟨_, rfl⟩
        rw [← hm] at p0 p1 ⊢
        have hidx : (pointBbox g st off size).idx = st.idx := rfl
        rw [hidx] at p0 p1 ⊢
        obtain ⟨r, er, hr, hperm⟩ := cut_tot hs h0 hb (fun i => decide (g.x i d < m))
        obtain ⟨c1, c2⟩ := cut_spec hr
        rw [er, ok_bind]
        have hsum0 := (splitLoop_ok (fun i => decide (g.x i d < m)) off size st.idx).sum
        obtain ⟨n0, hn0⟩ : ∃ n0, n0 = (splitLoop (fun i => decide (g.x i d < m)) off size st.idx).2.1 := ⟨_, rfl⟩
        rw [← hn0] at hr p0 c1 c2 hsum0 ⊢
        have hsum := hr.sum
        have hb1 : Rows sp r.1 off size := hb.perm hperm
        rw [if_pos p0]
        by_cases hn1 : 0 < r.2.1
        · rw [if_pos hn1, hr.flags]
          have hb2 : Rows sp r.1 off n0 := hb1.sub (le_refl _) (by omega) fun _ _ _ => rfl
          rcases ih { idx := r.1, hmin := (pointBbox g st off size).hmin, hmax := (pointBbox g st off size).hmax } off n0 p0 (by omega) hb2 with
            ⟨st1, s0, e0⟩ | ⟨e0, hi⟩
          · rw [e0, ok_bind]
            obtain ⟨g0, -⟩ := adaptiveDd_good g clf dim sp flag hs h0 _ _ _ _ _ _ _ hb2 e0
            dsimp only at g0
            have hb3 : Rows sp st1.idx (off + n0) r.2.1 := hb1.sub (by omega) (by omega) fun i h1 h2 => g0.good.perm.outside (by omega)
            rcases ih st1 (off + n0) r.2.1 hn1 (by omega) hb3 with ⟨st2, s1, e1⟩ | ⟨e1, hi⟩
            · dsimp only
              rw [e1, ok_bind]
              by_cases hn2 : 0 < r.2.2.1
              · dsimp only
                rw [if_pos hn2]
                obtain ⟨st3, s2, e2⟩ := adaptiveInterface_ok g hdim clf hd f st2 (off + n0 + r.2.1) r.2.2.1 1 hn2 (.inr ⟨by rw [Nat.mod_eq_of_lt (by omega)]; omega, by omega⟩)
                rw [e2, ok_bind]
                obtain ⟨t, et⟩ := fatherT_ok g 1 off size s0 [s1, s2]
                left
                dsimp only
                rw [et]
                exact ⟨_, _, rfl⟩
              · dsimp only
                rw [if_neg hn2]
                obtain ⟨t, et⟩ := fatherT_ok g 1 off size s0 [s1]
                left
                rw [et]
                exact ⟨_, _, rfl⟩
            · right
              dsimp only
              rw [e1]
              refine ⟨rfl, insep_perm hperm.symm (insep_sub (by omega) (by omega) (fun i h1 h2 => g0.good.perm.outside (by omega)) hi)⟩
          · right
            rw [e0]
            exact ⟨rfl, insep_perm hperm.symm (insep_sub (le_refl _) (by omega) (fun i h1 h2 => rfl) hi)⟩
        · right
          rw [if_neg hn1]
          refine ⟨rfl, insep_perm hperm.symm ?_⟩
          refine ⟨Finset.Ico off (off + size), fun p hp => by simpa using hp, by rw [Nat.card_Ico]; omega, d, m1, m, ⟨off, by simp; omega, c1 0 p0⟩,
            ⟨off + n0, by simp; omega, c2 n0 (le_refl _) (by omega)⟩, ?_⟩
          intro p hp hn
          rw [Finset.mem_Ico] at hp
          have hpn : off + n0 ≤ p := by
            by_contra hcon
            apply hn
            have := c1 (p - off) (by omega)
            rwa [show off + (p - off) = p by omega] at this
          obtain ⟨k, hk, hpos⟩ := hr.conn (p - (off + n0)) (by omega)
          refine ⟨off + k, by simp; omega, c1 k hk, ?_⟩
          rw [show off + n0 + r.2.1 + (p - (off + n0)) = p by omega] at hpos
          exact hpos
      · rw [if_neg ha]
        obtain ⟨t, et⟩ := leafT_ok g 1 (pointBbox g st off size).idx off hp
        rw [et]
        exact .inl ⟨_, _, rfl⟩
    · rw [if_neg hclf]
      obtain ⟨t, et⟩ := leafT_ok g 1 st.idx off hp
      rw [et]
      exact .inl ⟨_, _, rfl⟩

/-- if everything is connected, the builder always stops with a failed assertion -/
theorem adaptiveDd_full (g : Geom K) (hdim : 0 < g.dim) (clf dim : Nat) (sp : Sparse F) (flag : Arr Nat) (hs : Safe sp flag)
    (h0 : ∀ c, flag.v c = 0) (f : Nat) (st : St K) (off size : Nat) (hclf : clf < size) (hb : Rows sp st.idx off size)
    (hc : ∀ i < size, ∀ k < size, HasPos sp (st.idx (off + i)) (st.idx (off + k))) (hne : ¬ AllCoincide g.x g.dim st.idx off size) :
    buildAdaptiveDd g clf dim sp (f + 1) st flag off size = .error .assertFail := by
  rw [buildAdaptiveDd, if_pos hclf]
  dsimp only
  rw [if_neg (by omega)]
  have hp : 0 < size := by omega
  have ha : 0 < (maxDir g.dim (pointBbox g st off size).hmin (pointBbox g st off size).hmax).2 := by
    by_contra hcon
    exact hne (coincide_of_max g hdim st off hp hcon)
  obtain ⟨m1, m2, m3⟩ := maxDir_spec hdim (pointBbox g st off size).hmin (pointBbox g st off size).hmax
  rw [if_pos ha]
  rw [m2] at ha
  obtain ⟨p0, p1⟩ := midpoint_split g st off hp _ ha
  obtain ⟨d, hd'⟩ : ∃ d, d = (maxDir g.dim (pointBbox g st off size).hmin (pointBbox g st off size).hmax).1 := ⟨_, rfl⟩
  rw [← hd'] at p0 p1 m1 ⊢
  obtain ⟨m, hm⟩ : ∃ m, m = ((pointBbox g st off size).hmax d + (pointBbox g st off size).hmin d) / 2 := ⟨_, rfl⟩
  rw [← hm] at p0 p1 ⊢
  have hidx : (pointBbox g st off size).idx = st.idx := rfl
  rw [hidx] at p0 p1 ⊢
  obtain ⟨r, er, hr, hperm⟩ := cut_tot hs h0 hb (fun i => decide (g.x i d < m))
  rw [er, ok_bind, if_pos p0, if_neg]
  · rfl
  · intro hn1
    have hsum := hr.sum
    have := hr.sep 0 hn1 0 p0
    obtain ⟨i, hi, ei⟩ := hperm.inside (i := (splitLoop (fun i => decide (g.x i d < m)) off size st.idx).2.1) (by omega)
    obtain ⟨k, hk, ek⟩ := hperm.inside (i := 0) hp
    rw [Nat.add_zero, ei, ek] at this
    exact this (hc i hi k hk)

/-- with `dim = 1` the interface builders never terminate -/
theorem interface_dim_one (g : Geom K) (clf : Nat) : ∀ (f : Nat) (st : St K) (off size : Nat), clf < size →
    (∀ lev, buildAdaptiveInterface g clf 1 f st off size lev = .error .fuel) ∧
    (∀ dir lev, buildRegularInterface g clf 1 f st off size dir lev = .error .fuel) := by
  intro f
  induction f with
  | zero => intro st off size _; exact ⟨fun _ => rfl, fun _ _ => rfl⟩
  | succ f ih =>
    intro st off size hclf
    refine ⟨fun lev => ?_, fun dir lev => ?_⟩
    · rw [buildAdaptiveInterface, if_pos hclf, if_neg (by omega), if_neg (by rw [Nat.mod_one]; simp), (ih st off size hclf).1]
      rfl
    · rw [buildRegularInterface]
      dsimp only
      rw [if_pos hclf, if_neg (by omega), if_neg (by rw [Nat.mod_one]; simp), (ih st off size hclf).2]
      rfl

end H2.CB
