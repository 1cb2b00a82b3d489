import Verif.Spec.ClusterTree
import Mathlib.Tactic.Common
import Mathlib.Data.List.Basic
import Mathlib.Data.List.Range

namespace H2
open Spec
variable {K : Type _}

mutual
theorem Cluster.ind {P : Cluster K → Prop}
    (h : ∀ i ss, (∀ s ∈ ss, P s) → P (.mk i ss)) : ∀ t, P t
  | .mk i ss => h i ss (Cluster.indL h ss)
theorem Cluster.indL {P : Cluster K → Prop}
    (h : ∀ i ss, (∀ s ∈ ss, P s) → P (.mk i ss)) : ∀ (ss : List (Cluster K)), ∀ s ∈ ss, P s
  | [], _, hs => by cases hs
  | c :: cs, s, hs => by
    rcases List.mem_cons.1 hs with h' | h'
    · rw [h']; exact Cluster.ind h c
    · exact Cluster.indL h cs s h'
end

@[simp] theorem Cluster.info_mk (i : CInfo K) (s) : (Cluster.mk i s).info = i := rfl
@[simp] theorem Cluster.sons_mk (i : CInfo K) (s) : (Cluster.mk i s).sons = s := rfl
@[simp] theorem Cluster.off_mk (i : CInfo K) (s) : (Cluster.mk i s).off = i.off := rfl
@[simp] theorem Cluster.size_mk (i : CInfo K) (s) : (Cluster.mk i s).size = i.size := rfl
@[simp] theorem Cluster.desc_mk (i : CInfo K) (s) : (Cluster.mk i s).desc = i.desc := rfl

theorem nodesL_eq (ss : List (Cluster K)) : nodesL ss = ss.flatMap nodes := by
  induction ss with
  | nil => simp [nodesL]
  | cons s ss ih => simp [nodesL, ih]

theorem nodes_mk (i : CInfo K) (ss) : nodes (.mk i ss) = .mk i ss :: ss.flatMap nodes := by
  simp [nodes, nodesL_eq]

theorem leavesL_eq (ss : List (Cluster K)) : leavesL ss = ss.flatMap leaves := by
  induction ss with
  | nil => simp [leavesL]
  | cons s ss ih => simp [leavesL, ih]

theorem leaves_mk_cons (i : CInfo K) (s ss) :
    leaves (.mk i (s :: ss)) = (s :: ss).flatMap leaves := by
  simp [leaves, leavesL_eq]

theorem mem_nodes_self (t : Cluster K) : t ∈ nodes t := by
  cases t; simp [nodes]

theorem forall_nodes_mk {P : Cluster K → Prop} {i : CInfo K} {ss} :
    (∀ s ∈ nodes (.mk i ss), P s) ↔ P (.mk i ss) ∧ ∀ s ∈ ss, ∀ u ∈ nodes s, P u := by
  simp only [nodes_mk, List.mem_cons, List.mem_flatMap]
  constructor
  · intro h; exact ⟨h _ (Or.inl rfl), fun s hs u hu => h u (Or.inr ⟨s, hs, hu⟩)⟩
  · rintro ⟨h1, h2⟩ s (rfl | ⟨u, hu, hs⟩)
    · exact h1
    · exact h2 u hu s hs

theorem descExact_mk {i : CInfo K} {ss} :
    DescExact (.mk i ss) ↔ i.desc = (nodes (Cluster.mk i ss)).length ∧ ∀ s ∈ ss, DescExact s := by
  unfold DescExact; rw [forall_nodes_mk]; rfl

theorem consistent_mk {i : CInfo K} {ss} :
    Consistent (.mk i ss) ↔ (ss ≠ [] → Tiles i.off ss (i.off + i.size)) ∧
      ∀ s ∈ ss, Consistent s := by
  unfold Consistent; rw [forall_nodes_mk]; rfl

theorem foldl_desc (ss : List (Cluster K)) (h : ∀ s ∈ ss, s.desc = (nodes s).length) :
    ∀ d, ss.foldl (fun d c => d + c.desc) d = d + (ss.flatMap nodes).length := by
  induction ss with
  | nil => simp
  | cons s ss ih =>
    intro d
    simp only [List.foldl_cons, List.flatMap_cons, List.length_append]
    rw [ih (fun u hu => h u (by simp [hu])), h s (by simp)]; omega

theorem nodes_length_info (i j : CInfo K) (ss) :
    (nodes (.mk i ss)).length = (nodes (.mk j ss)).length := by simp [nodes_mk]

theorem update_descExact {i : CInfo K} {ss} (h : ∀ s ∈ ss, DescExact s) :
    DescExact (Cluster.update (.mk i ss)) := by
  unfold Cluster.update
  rw [descExact_mk]
  refine ⟨?_, h⟩
  rw [nodes_length_info _ i, nodes_mk, List.length_cons,
    foldl_desc ss (fun s hs => h s hs s (mem_nodes_self s))]
  exact Nat.add_comm _ _

theorem update_descExact' {t : Cluster K} (h : DescExact t) : DescExact t.update := by
  cases t; exact update_descExact (descExact_mk.1 h).2

/-! ### adaptation: list versions -/

theorem extendL_eq (ss : List (Cluster K)) (d : Nat) : Cluster.extendL ss d = ss.map (·.extend d) := by
  induction ss with
  | nil => simp [Cluster.extendL]
  | cons s ss ih => simp [Cluster.extendL, ih]

theorem cutL_eq (ss : List (Cluster K)) (d : Nat) : Cluster.cutL ss d = ss.map (·.cut d) := by
  induction ss with
  | nil => simp [Cluster.cutL]
  | cons s ss ih => simp [Cluster.cutL, ih]

theorem balanceL_eq (ss : List (Cluster K)) (d : Nat) :
    Cluster.balanceL ss d = ss.map (·.balance d) := by
  induction ss with
  | nil => simp [Cluster.balanceL]
  | cons s ss ih => simp [Cluster.balanceL, ih]

theorem coarsenL_eq (ss : List (Cluster K)) (m : Nat) :
    Cluster.coarsenL m ss = ss.map (·.coarsen m) := by
  induction ss with
  | nil => simp [Cluster.coarsenL]
  | cons s ss ih => simp [Cluster.coarsenL, ih]

/-! ### DescExact -/

theorem extendLeaf_descExact : ∀ (d : Nat) (i : CInfo K), DescExact (Cluster.extendLeaf i d)
  | 0, i => update_descExact (by simp)
  | d + 1, i => update_descExact (by simpa using extendLeaf_descExact d _)

theorem extend_descExact (t : Cluster K) : ∀ d, DescExact t → DescExact (t.extend d) := by
  induction t using Cluster.ind with
  | h i ss ih =>
    intro d h
    match ss, d with
    | ss, 0 => rw [Cluster.extend]; exact update_descExact (descExact_mk.1 h).2
    | [], d + 1 => rw [Cluster.extend]; exact extendLeaf_descExact _ _
    | s :: ss, d + 1 =>
      rw [Cluster.extend, extendL_eq]
      apply update_descExact
      intro u hu
      obtain ⟨c, hc, rfl⟩ := List.mem_map.1 hu
      exact ih c hc d ((descExact_mk.1 h).2 c hc)

theorem cut_descExact (t : Cluster K) : ∀ d, DescExact (t.cut d) := by
  induction t using Cluster.ind with
  | h i ss ih =>
    intro d
    cases d with
    | zero => rw [Cluster.cut]; exact update_descExact (by simp)
    | succ d =>
      rw [Cluster.cut, cutL_eq]
      apply update_descExact
      intro u hu
      obtain ⟨c, hc, rfl⟩ := List.mem_map.1 hu
      exact ih c hc d

theorem balance_descExact (t : Cluster K) : ∀ d, DescExact (t.balance d) := by
  induction t using Cluster.ind with
  | h i ss ih =>
    intro d
    match ss, d with
    | [], 0 => rw [Cluster.balance]; exact update_descExact (by simp)
    | s :: ss, 0 => rw [Cluster.balance]; exact update_descExact' (cut_descExact _ _)
    | [], d + 1 =>
      rw [Cluster.balance, Cluster.extend]; exact update_descExact' (extendLeaf_descExact _ _)
    | s :: ss, d + 1 =>
      rw [Cluster.balance, balanceL_eq]
      apply update_descExact
      intro u hu
      obtain ⟨c, hc, rfl⟩ := List.mem_map.1 hu
      exact ih c hc d

theorem coarsen_descExact (m : Nat) (t : Cluster K) : DescExact (t.coarsen m) := by
  induction t using Cluster.ind with
  | h i ss ih =>
    rw [Cluster.coarsen]
    split
    · exact update_descExact (by simp)
    · rw [coarsenL_eq]
      apply update_descExact
      intro u hu
      obtain ⟨c, hc, rfl⟩ := List.mem_map.1 hu
      exact ih c hc

/-! ### depth -/

theorem getdepthL_le (ss : List (Cluster K)) : ∀ l, l ≤ Cluster.getdepthL ss l := by
  induction ss with
  | nil => simp [Cluster.getdepthL]
  | cons s ss ih => intro l; rw [Cluster.getdepthL]; exact le_trans (le_max_right _ _) (ih _)

theorem getdepthL_ge (ss : List (Cluster K)) :
    ∀ l, ∀ s ∈ ss, s.getdepth ≤ Cluster.getdepthL ss l := by
  induction ss with
  | nil => simp
  | cons c ss ih =>
    intro l s hs
    rw [Cluster.getdepthL]
    rcases List.mem_cons.1 hs with rfl | h
    · exact le_trans (le_max_left _ _) (getdepthL_le _ _)
    · exact ih _ s h

theorem getdepthL_attained (ss : List (Cluster K)) :
    ∀ l, Cluster.getdepthL ss l = l ∨ ∃ s ∈ ss, Cluster.getdepthL ss l = s.getdepth := by
  induction ss with
  | nil => simp [Cluster.getdepthL]
  | cons c ss ih =>
    intro l
    rw [Cluster.getdepthL]
    rcases ih (max c.getdepth l) with h | ⟨s, hs, h⟩
    · rcases le_total c.getdepth l with h' | h'
      · left; rw [h, max_eq_right h']
      · right; exact ⟨c, by simp, by rw [h, max_eq_left h']⟩
    · right; exact ⟨s, by simp [hs], h⟩

theorem getmindepthL_le (ss : List (Cluster K)) : ∀ l, Cluster.getmindepthL ss l ≤ l := by
  induction ss with
  | nil => simp [Cluster.getmindepthL]
  | cons s ss ih => intro l; rw [Cluster.getmindepthL]; exact le_trans (ih _) (min_le_right _ _)

theorem getmindepthL_le' (ss : List (Cluster K)) :
    ∀ l, ∀ s ∈ ss, Cluster.getmindepthL ss l ≤ s.getmindepth := by
  induction ss with
  | nil => simp
  | cons c ss ih =>
    intro l s hs
    rw [Cluster.getmindepthL]
    rcases List.mem_cons.1 hs with rfl | h
    · exact le_trans (getmindepthL_le _ _) (min_le_left _ _)
    · exact ih _ s h

theorem getmindepthL_attained (ss : List (Cluster K)) :
    ∀ l, Cluster.getmindepthL ss l = l ∨ ∃ s ∈ ss, Cluster.getmindepthL ss l = s.getmindepth := by
  induction ss with
  | nil => simp [Cluster.getmindepthL]
  | cons c ss ih =>
    intro l
    rw [Cluster.getmindepthL]
    rcases ih (min c.getmindepth l) with h | ⟨s, hs, h⟩
    · rcases le_total c.getmindepth l with h' | h'
      · right; exact ⟨c, by simp, by rw [h, min_eq_left h']⟩
      · left; rw [h, min_eq_right h']
    · right; exact ⟨s, by simp [hs], h⟩

theorem getdepth_spec (t : Cluster K) :
    LeafAt t t.getdepth ∧ ∀ d, LeafAt t d → d ≤ t.getdepth := by
  induction t using Cluster.ind with
  | h i ss ih =>
    cases ss with
    | nil =>
      rw [Cluster.getdepth]
      refine ⟨.here, fun d hd => ?_⟩
      cases hd with
      | here => exact Nat.le_refl _
      | down h _ => cases h
    | cons s ss =>
      rw [Cluster.getdepth]
      constructor
      · rcases getdepthL_attained (s :: ss) 0 with h | ⟨c, hc, h⟩
        · have h1 := getdepthL_ge (s :: ss) 0 s (by simp)
          have h2 : Cluster.getdepthL (s :: ss) 0 = s.getdepth := by omega
          rw [h2]; exact .down (List.mem_cons_self) (ih s (by simp)).1
        · rw [h]; exact .down hc (ih c hc).1
      · intro d hd
        cases hd with
        | down hs hl =>
          rename_i c d
          have := (ih c hs).2 _ hl
          have := getdepthL_ge (s :: ss) 0 c hs
          omega

theorem getmindepth_spec (t : Cluster K) :
    LeafAt t t.getmindepth ∧ ∀ d, LeafAt t d → t.getmindepth ≤ d := by
  induction t using Cluster.ind with
  | h i ss ih =>
    cases ss with
    | nil =>
      rw [Cluster.getmindepth]
      exact ⟨.here, fun d hd => Nat.zero_le _⟩
    | cons s ss =>
      rw [Cluster.getmindepth]
      constructor
      · rcases getmindepthL_attained ss s.getmindepth with h | ⟨c, hc, h⟩
        · rw [h]; exact .down (List.mem_cons_self) (ih s (by simp)).1
        · rw [h]; exact .down (List.mem_cons_of_mem _ hc) (ih c (by simp [hc])).1
      · intro d hd
        cases hd with
        | down hs hl =>
          rename_i c d
          have h1 := (ih c hs).2 _ hl
          rcases List.mem_cons.1 hs with rfl | h
          · have := getmindepthL_le ss c.getmindepth; omega
          · have := getmindepthL_le' ss s.getmindepth c h; omega

/-! ### consistency -/

theorem tiles_congr {f : Cluster K → Cluster K} (hf : ∀ s, (f s).off = s.off ∧ (f s).size = s.size) :
    ∀ (ss : List (Cluster K)) (a b : Nat), Tiles a (ss.map f) b ↔ Tiles a ss b
  | [], a, b => Iff.rfl
  | s :: ss, a, b => by
    simp only [List.map_cons, Tiles, (hf s).1, (hf s).2, tiles_congr hf ss]

@[simp] theorem update_off (t : Cluster K) : t.update.off = t.off := by cases t; rfl
@[simp] theorem update_size (t : Cluster K) : t.update.size = t.size := by cases t; rfl
@[simp] theorem update_sons (t : Cluster K) : t.update.sons = t.sons := by cases t; rfl

theorem update_consistent {t : Cluster K} : Consistent t.update ↔ Consistent t := by
  cases t; unfold Cluster.update; rw [consistent_mk, consistent_mk]

@[simp] theorem extendLeaf_off (i : CInfo K) (d) : (Cluster.extendLeaf i d).off = i.off := by
  cases d <;> simp [Cluster.extendLeaf]
@[simp] theorem extendLeaf_size (i : CInfo K) (d) : (Cluster.extendLeaf i d).size = i.size := by
  cases d <;> simp [Cluster.extendLeaf]

theorem extend_seg (d : Nat) (t : Cluster K) : (t.extend d).off = t.off ∧ (t.extend d).size = t.size := by
  match t, d with
  | .mk i ss, 0 => simp [Cluster.extend]
  | .mk i [], d + 1 => simp [Cluster.extend]
  | .mk i (s :: ss), d + 1 => simp [Cluster.extend]

theorem cut_seg (d : Nat) (t : Cluster K) : (t.cut d).off = t.off ∧ (t.cut d).size = t.size := by
  match t, d with
  | .mk i ss, 0 => simp [Cluster.cut]
  | .mk i ss, d + 1 => simp [Cluster.cut]

theorem balance_seg (d : Nat) (t : Cluster K) :
    (t.balance d).off = t.off ∧ (t.balance d).size = t.size := by
  match t, d with
  | .mk i [], 0 => simp [Cluster.balance]
  | .mk i (s :: ss), 0 => simp [Cluster.balance, cut_seg]
  | .mk i [], d + 1 => simp [Cluster.balance, extend_seg]
  | .mk i (s :: ss), d + 1 => simp [Cluster.balance]

theorem coarsen_seg (m : Nat) (t : Cluster K) :
    (t.coarsen m).off = t.off ∧ (t.coarsen m).size = t.size := by
  match t with
  | .mk i ss => rw [Cluster.coarsen]; split <;> simp

theorem extendLeaf_consistent : ∀ (d : Nat) (i : CInfo K), 0 < i.size →
    Consistent (Cluster.extendLeaf i d)
  | 0, i, _ => by rw [Cluster.extendLeaf, update_consistent, consistent_mk]; simp
  | d + 1, i, h => by
    rw [Cluster.extendLeaf, update_consistent, consistent_mk]
    refine ⟨fun _ => by simp [Tiles, h], ?_⟩
    simpa using extendLeaf_consistent d { i with desc := 0, type := 0 } h

/-- the sizes below a non-empty consistent root are positive -/
theorem tiles_pos : ∀ (ss : List (Cluster K)) (a b : Nat), Tiles a ss b → ∀ s ∈ ss, 0 < s.size
  | [], _, _, _, s, hs => by cases hs
  | c :: ss, a, b, h, s, hs => by
    rcases List.mem_cons.1 hs with rfl | h'
    · exact h.2.1
    · exact tiles_pos ss _ _ h.2.2 s h'

theorem tiles_le : ∀ (ss : List (Cluster K)) (a b : Nat), Tiles a ss b → a ≤ b
  | [], _, _, h => le_of_eq h
  | c :: ss, a, b, h => by have := tiles_le ss _ _ h.2.2; omega

theorem extend_consistent (t : Cluster K) : ∀ d, 0 < t.size → Consistent t → Consistent (t.extend d) := by
  induction t using Cluster.ind with
  | h i ss ih =>
    intro d hp h
    match ss, d with
    | ss, 0 => rw [Cluster.extend, update_consistent]; exact h
    | [], d + 1 => rw [Cluster.extend]; exact extendLeaf_consistent _ _ hp
    | s :: ss, d + 1 =>
      rw [Cluster.extend, extendL_eq, update_consistent, consistent_mk]
      have h0 := (consistent_mk.1 h).1 (by simp)
      refine ⟨fun _ => (tiles_congr (extend_seg d) _ _ _).2 h0, ?_⟩
      intro u hu
      obtain ⟨c, hc, rfl⟩ := List.mem_map.1 hu
      exact ih c hc d (tiles_pos _ _ _ h0 c hc) ((consistent_mk.1 h).2 c hc)

theorem cut_consistent (t : Cluster K) : ∀ d, Consistent t → Consistent (t.cut d) := by
  induction t using Cluster.ind with
  | h i ss ih =>
    intro d h
    cases d with
    | zero => rw [Cluster.cut, update_consistent, consistent_mk]; simp
    | succ d =>
      rw [Cluster.cut, cutL_eq, update_consistent, consistent_mk]
      refine ⟨fun hne => (tiles_congr (cut_seg d) _ _ _).2 ((consistent_mk.1 h).1 (by simpa using hne)), ?_⟩
      intro u hu
      obtain ⟨c, hc, rfl⟩ := List.mem_map.1 hu
      exact ih c hc d ((consistent_mk.1 h).2 c hc)

theorem balance_consistent (t : Cluster K) :
    ∀ d, 0 < t.size → Consistent t → Consistent (t.balance d) := by
  induction t using Cluster.ind with
  | h i ss ih =>
    intro d hp h
    match ss, d with
    | [], 0 => rw [Cluster.balance, update_consistent]; exact h
    | s :: ss, 0 => rw [Cluster.balance, update_consistent]; exact cut_consistent _ _ h
    | [], d + 1 => rw [Cluster.balance, update_consistent]; exact extend_consistent _ _ hp h
    | s :: ss, d + 1 =>
      rw [Cluster.balance, balanceL_eq, update_consistent, consistent_mk]
      have h0 := (consistent_mk.1 h).1 (by simp)
      refine ⟨fun _ => (tiles_congr (balance_seg d) _ _ _).2 h0, ?_⟩
      intro u hu
      obtain ⟨c, hc, rfl⟩ := List.mem_map.1 hu
      exact ih c hc d (tiles_pos _ _ _ h0 c hc) ((consistent_mk.1 h).2 c hc)

theorem coarsen_consistent (m : Nat) (t : Cluster K) : Consistent t → Consistent (t.coarsen m) := by
  induction t using Cluster.ind with
  | h i ss ih =>
    intro h
    rw [Cluster.coarsen]
    split
    · rw [update_consistent, consistent_mk]; simp
    · rw [coarsenL_eq, update_consistent, consistent_mk]
      refine ⟨fun hne => (tiles_congr (coarsen_seg m) _ _ _).2
        ((consistent_mk.1 h).1 (by simpa using hne)), ?_⟩
      intro u hu
      obtain ⟨c, hc, rfl⟩ := List.mem_map.1 hu
      exact ih c hc ((consistent_mk.1 h).2 c hc)

theorem leafPositionsL (ss : List (Cluster K))
    (ih : ∀ s ∈ ss, leafPositions s = List.range' s.off s.size) :
    ∀ a b, Tiles a ss b →
      (ss.flatMap leaves).flatMap (fun s => List.range' s.off s.size) = List.range' a (b - a) := by
  induction ss with
  | nil => intro a b h; cases h; simp
  | cons s ss ih2 =>
    intro a b h
    obtain ⟨h1, h2, h3⟩ := h
    rw [List.flatMap_cons, List.flatMap_append, ih2 (fun u hu => ih u (by simp [hu])) _ _ h3]
    have := ih s (by simp)
    unfold leafPositions at this
    rw [this, h1, List.range'_append_1]
    have := tiles_le _ _ _ h3
    congr 1; omega

theorem leafPositions_eq (t : Cluster K) (h : Consistent t) :
    leafPositions t = List.range' t.off t.size := by
  induction t using Cluster.ind with
  | h i ss ih =>
    cases ss with
    | nil => simp [leafPositions, leaves]
    | cons s ss =>
      unfold leafPositions
      rw [leaves_mk_cons, leafPositionsL (s :: ss) (fun u hu => ih u hu ((consistent_mk.1 h).2 u hu)) _ _
        ((consistent_mk.1 h).1 (by simp))]
      simp

/-! ### levels -/

theorem leafAt_mk {i : CInfo K} {ss : List (Cluster K)} {l : Nat} (h : LeafAt (.mk i ss) l) :
    (ss = [] ∧ l = 0) ∨ ∃ s ∈ ss, ∃ d, l = d + 1 ∧ LeafAt s d := by
  cases h with
  | here => left; exact ⟨rfl, rfl⟩
  | down a b => right; exact ⟨_, a, _, rfl, b⟩

theorem leafAt_update {t : Cluster K} {d : Nat} : LeafAt t.update d ↔ LeafAt t d := by
  cases t with
  | mk i ss =>
    unfold Cluster.update
    constructor
    · intro h
      cases h with
      | here => exact .here
      | down a b => exact .down a b
    · intro h
      cases h with
      | here => exact .here
      | down a b => exact .down a b

theorem extendLeaf_leafAt : ∀ (d : Nat) (i : CInfo K) (l), LeafAt (Cluster.extendLeaf i d) l → l = d
  | 0, i, l, h => by
    rw [Cluster.extendLeaf, leafAt_update] at h
    cases h with
    | here => rfl
    | down a _ => cases a
  | d + 1, i, l, h => by
    rw [Cluster.extendLeaf, leafAt_update] at h
    cases h with
    | down a b =>
      simp only [List.mem_singleton] at a
      subst a
      rw [extendLeaf_leafAt d _ _ b]

theorem extend_leafAt (t : Cluster K) : ∀ d l, LeafAt (t.extend d) l → d ≤ l := by
  induction t using Cluster.ind with
  | h i ss ih =>
    intro d l h
    match ss, d with
    | ss, 0 => exact Nat.zero_le _
    | [], d + 1 => rw [Cluster.extend] at h; exact le_of_eq (extendLeaf_leafAt _ _ _ h).symm
    | s :: ss, d + 1 =>
      rw [Cluster.extend, extendL_eq, leafAt_update] at h
      cases h with
      | down a b =>
        obtain ⟨c, hc, rfl⟩ := List.mem_map.1 a
        have := ih c hc d _ b
        omega

theorem cut_leafAt (t : Cluster K) : ∀ d l, LeafAt (t.cut d) l → l ≤ d := by
  induction t using Cluster.ind with
  | h i ss ih =>
    intro d l h
    cases d with
    | zero =>
      rw [Cluster.cut, leafAt_update] at h
      cases h with
      | here => exact Nat.le_refl _
      | down a _ => cases a
    | succ d =>
      rw [Cluster.cut, cutL_eq, leafAt_update] at h
      rcases leafAt_mk h with ⟨_, rfl⟩ | ⟨u, a, l, rfl, b⟩
      · exact Nat.zero_le _
      · obtain ⟨c, hc, rfl⟩ := List.mem_map.1 a
        have := ih c hc d _ b
        omega

theorem balance_leafAt (t : Cluster K) : ∀ d l, LeafAt (t.balance d) l → l = d := by
  induction t using Cluster.ind with
  | h i ss ih =>
    intro d l h
    match ss, d with
    | [], 0 =>
      rw [Cluster.balance, leafAt_update] at h
      cases h with
      | here => rfl
      | down a _ => cases a
    | s :: ss, 0 =>
      rw [Cluster.balance, leafAt_update] at h
      have := cut_leafAt _ _ _ h; omega
    | [], d + 1 =>
      rw [Cluster.balance, leafAt_update, Cluster.extend] at h; exact extendLeaf_leafAt _ _ _ h
    | s :: ss, d + 1 =>
      rw [Cluster.balance, balanceL_eq, leafAt_update] at h
      cases h with
      | down a b =>
        obtain ⟨c, hc, rfl⟩ := List.mem_map.1 a
        rw [ih c hc d _ b]

theorem coarsen_sizes (m : Nat) (t : Cluster K) :
    ∀ s ∈ nodes (t.coarsen m), ∀ c ∈ s.sons, m ≤ c.size := by
  induction t using Cluster.ind with
  | h i ss ih =>
    rw [Cluster.coarsen]
    split
    · unfold Cluster.update; rw [forall_nodes_mk]; simp
    · rename_i hn
      rw [coarsenL_eq]
      unfold Cluster.update
      rw [forall_nodes_mk]
      constructor
      · intro c hc
        obtain ⟨c', hc', rfl⟩ := List.mem_map.1 hc
        rw [(coarsen_seg m c').2]
        simp only [List.any_eq_true, decide_eq_true_eq, not_exists, not_and, not_lt] at hn
        exact hn c' hc'
      · intro s hs u hu
        obtain ⟨c', hc', rfl⟩ := List.mem_map.1 hs
        exact ih c' hc' u hu

end H2
