import Verif.Proof.Block
import Verif.Proof.ClusterIter

/-! Names of clusters and blocks. -/

set_option linter.unusedSectionVars false

namespace H2
open Spec
variable {K : Type _}

/-- `t` is reached from `r` -/
inductive Under : CRef K → CRef K → Prop where
  | refl {r : CRef K} : Under r r
  | son {r t : CRef K} (i : Fin t.nsons) : Under r t → Under r (t.son i)

theorem Under.trans {r s t : CRef K} (h1 : Under r s) (h2 : Under s t) : Under r t := by
  induction h2 with
  | refl => exact h1
  | son i _ ih => exact .son i ih

/-- `f` numbers the clusters below `t` consecutively -/
def IsNaming (f : CRef K → Nat) (t : CRef K) : Prop :=
  ∀ u, Under t u → ∀ i, f (u.son i) = Block.sonName u (f u) i

theorem IsNaming.son {f : CRef K → Nat} {t : CRef K} (h : IsNaming f t) (i : Fin t.nsons) :
    IsNaming f (t.son i) := fun u hu => h u (Under.trans (.son i .refl) hu)

theorem descExact_son {t : CRef K} (h : DescExact t.cl) (i : Fin t.nsons) : DescExact (t.son i).cl := by
  obtain ⟨p, t⟩ := t
  cases t with
  | mk c ss => exact (descExact_mk.1 h).2 _ (List.getElem_mem i.2)

theorem sonName_zero (t : CRef K) (n : Nat) : Block.sonName t n 0 = n + 1 := by simp [Block.sonName]

theorem sonName_succ (t : CRef K) (n : Nat) (i : Fin t.nsons) :
    Block.sonName t n (i.1 + 1) = Block.sonName t n i.1 + (t.son i).cl.desc := by
  unfold Block.sonName
  rw [List.take_succ_eq_append_getElem i.2, List.foldl_append]; rfl

theorem foldl_desc_start (ss : List (Cluster K)) : ∀ a,
    ss.foldl (fun d s => d + s.desc) a = a + ss.foldl (fun d s => d + s.desc) 0 := by
  induction ss with
  | nil => intro a; rfl
  | cons s ss ih => intro a; rw [List.foldl_cons, List.foldl_cons, ih, ih (0 + s.desc)]; omega

theorem foldl_desc_nodes (ss : List (Cluster K)) (hh : ∀ s ∈ ss, DescExact s) :
    ss.foldl (fun d s => d + s.desc) 0 = (ss.flatMap nodes).length := by
  induction ss with
  | nil => rfl
  | cons s ss ih =>
    rw [List.foldl_cons, foldl_desc_start, ih (fun s hs => hh s (List.mem_cons_of_mem _ hs)),
      List.flatMap_cons, List.length_append, hh s List.mem_cons_self s (mem_nodes_self s)]
    omega

theorem sonName_last (t : CRef K) (n : Nat) (h : DescExact t.cl) :
    Block.sonName t n t.nsons = n + t.cl.desc := by
  have h0 := h t.cl (mem_nodes_self _)
  unfold Block.sonName CRef.nsons
  rw [List.take_length]
  obtain ⟨p, t⟩ := t
  cases t with
  | mk c ss =>
    simp only [Cluster.sons_mk, Cluster.desc_mk] at h0 ⊢
    have h1 := (descExact_mk.1 h).2
    rw [h0, nodes_mk, List.length_cons, foldl_desc_start, Nat.add_assoc]
    congr 1
    rw [foldl_desc_nodes ss h1]
    omega

/-! ### `refIndex` is a naming -/

theorem cpathsL_length (ss : List (Cluster K)) (ih : ∀ s ∈ ss, (cpaths s).length = (nodes s).length) :
    ∀ i, (cpathsL i ss).length = (ss.flatMap nodes).length := by
  induction ss with
  | nil => intro i; rfl
  | cons s ss ih2 =>
    intro i
    rw [cpathsL, List.length_append, List.length_map, List.flatMap_cons, List.length_append,
      ih s List.mem_cons_self, ih2 (fun s hs => ih s (List.mem_cons_of_mem _ hs))]

theorem cpaths_length (t : Cluster K) : (cpaths t).length = (nodes t).length := by
  induction t using Cluster.ind with
  | h c ss ih => rw [cpaths, nodes_mk, List.length_cons, List.length_cons, cpathsL_length ss ih]

theorem cpathsL_head {ss : List (Cluster K)} {i : Nat} {q : List Nat} (h : q ∈ cpathsL i ss) :
    ∃ k q', q = k :: q' ∧ i ≤ k := by
  induction ss generalizing i with
  | nil => rw [cpathsL] at h; cases h
  | cons s ss ih =>
    rw [cpathsL, List.mem_append] at h
    rcases h with h | h
    · obtain ⟨q', _, rfl⟩ := List.mem_map.1 h; exact ⟨i, q', rfl, le_rfl⟩
    · obtain ⟨k, q', e, hk⟩ := ih h; exact ⟨k, q', e, by omega⟩

theorem cpaths_nil (t : Cluster K) : (cpaths t).idxOf [] = 0 := by
  cases t; rw [cpaths, List.idxOf_cons_self]

theorem idxOf_map_inj {α β : Type _} [BEq α] [LawfulBEq α] [BEq β] [LawfulBEq β] (f : α → β) (hf : Function.Injective f)
    (l : List α) (a : α) : (l.map f).idxOf (f a) = l.idxOf a := by
  induction l with
  | nil => rfl
  | cons b l ih =>
    rw [List.map_cons, List.idxOf_cons, List.idxOf_cons, ih]
    have hb : (f b == f a) = (b == a) := by
      by_cases h : b = a
      · subst h; simp
      · have : f b ≠ f a := fun e => h (hf e)
        rw [beq_eq_false_iff_ne.2 h, beq_eq_false_iff_ne.2 this]
    rw [hb]

/-- index of a path that starts with a valid son number -/
theorem cpathsL_idxOf : ∀ (ss : List (Cluster K)) (i k : Nat) (hk : k < ss.length) (q : List Nat),
    q ∈ cpaths ss[k] →
    (cpathsL i ss).idxOf ((i + k) :: q) =
      ((ss.take k).flatMap nodes).length + (cpaths ss[k]).idxOf q
  | [], _, _, hk, _, _ => by simp at hk
  | s :: ss, i, 0, hk, q, hq => by
    simp only [List.getElem_cons_zero] at hq ⊢
    rw [Nat.add_zero, cpathsL, List.idxOf_append_of_mem (List.mem_map.2 ⟨q, hq, rfl⟩)]
    have := idxOf_map_inj (List.cons i) (fun a b h => (List.cons.inj h).2) (cpaths s) q
    simpa using this
  | s :: ss, i, k + 1, hk, q, hq => by
    simp only [List.getElem_cons_succ] at hq ⊢
    rw [cpathsL, List.idxOf_append_of_notMem, List.length_map, cpaths_length]
    · rw [show i + (k + 1) = i + 1 + k by omega,
        cpathsL_idxOf ss (i + 1) k (by simpa using hk) q hq]
      simp only [List.take_succ_cons, List.flatMap_cons, List.length_append]
      omega
    · intro h
      obtain ⟨q', _, e⟩ := List.mem_map.1 h
      have := (List.cons.inj e).1
      omega

theorem mem_cpaths_son {t : Cluster K} {q : List Nat} {k : Nat} (hk : k < t.sons.length)
    (h : q ∈ cpaths t.sons[k]) : (k :: q) ∈ cpaths t := by
  cases t with
  | mk c ss =>
    simp only [Cluster.sons_mk] at hk h
    rw [cpaths]
    apply List.mem_cons_of_mem
    have key : ∀ (ss : List (Cluster K)) (i k : Nat) (hk : k < ss.length), q ∈ cpaths ss[k] →
        ((i + k) :: q) ∈ cpathsL i ss := by
      intro ss
      induction ss with
      | nil => intro i k hk; simp at hk
      | cons s ss ih =>
        intro i k hk hq
        rw [cpathsL, List.mem_append]
        cases k with
        | zero => left; exact List.mem_map.2 ⟨q, hq, rfl⟩
        | succ k =>
          right
          have := ih (i + 1) k (by simpa using hk) hq
          rwa [show i + 1 + k = i + (k + 1) by omega] at this
    have := key ss 0 k hk h
    rwa [Nat.zero_add] at this

/-- what is known about a path below `t` -/
theorem cpaths_idx_cons {t : Cluster K} {q : List Nat} {k : Nat} (hk : k < t.sons.length)
    (h : q ∈ cpaths t.sons[k]) :
    (cpaths t).idxOf (k :: q) = 1 + ((t.sons.take k).flatMap nodes).length + (cpaths t.sons[k]).idxOf q := by
  cases t with
  | mk c ss =>
    simp only [Cluster.sons_mk] at hk h ⊢
    rw [cpaths, List.idxOf_cons_ne _ (by simp)]
    have := cpathsL_idxOf ss 0 k hk q h
    rw [Nat.zero_add] at this
    rw [this]; omega

/-- descending through the tree at the end of a valid path -/
theorem cpaths_son_idx : ∀ (q : List Nat) (t u : Cluster K), atPath t q = some u → DescExact t → q ∈ cpaths t ∧
    ∀ k (hk : k < u.sons.length), (cpaths t).idxOf (q ++ [k]) =
      (cpaths t).idxOf q + 1 + ((u.sons.take k).flatMap nodes).length ∧ (q ++ [k]) ∈ cpaths t := by
  intro q
  induction q with
  | nil =>
    intro t u h _
    have : t = u := by cases t; simpa [atPath] using h
    subst this
    refine ⟨by cases t; rw [cpaths]; exact List.mem_cons_self, fun k hk => ?_⟩
    have hm : [] ∈ cpaths t.sons[k] := by
      cases t.sons[k]; rw [cpaths]; exact List.mem_cons_self
    refine ⟨?_, mem_cpaths_son hk hm⟩
    rw [List.nil_append, cpaths_idx_cons hk hm, cpaths_nil, cpaths_nil]; omega
  | cons n q ih =>
    intro t u h hd
    have hn : ∃ hn : n < t.sons.length, atPath (t.sons[n]) q = some u := by
      cases t with
      | mk c ss =>
        simp only [atPath] at h
        split at h
        · cases h
        · rename_i s hs
          obtain ⟨hlt, e⟩ := List.getElem?_eq_some_iff.1 hs
          exact ⟨hlt, by simpa [e] using h⟩
    obtain ⟨hn, h'⟩ := hn
    have hds : DescExact t.sons[n] := by
      cases t; exact (descExact_mk.1 hd).2 _ (List.getElem_mem hn)
    obtain ⟨h1, h2⟩ := ih _ u h' hds
    refine ⟨mem_cpaths_son hn h1, fun k hk => ?_⟩
    obtain ⟨h3, h4⟩ := h2 k hk
    refine ⟨?_, mem_cpaths_son hn h4⟩
    rw [List.cons_append, cpaths_idx_cons hn h4, cpaths_idx_cons hn h1, h3]; omega

theorem atPath_append : ∀ (q p : List Nat) (t u : Cluster K), atPath t q = some u →
    atPath t (q ++ p) = atPath u p := by
  intro q
  induction q with
  | nil => intro p t u h; cases t; simp only [atPath, Option.some_inj] at h; subst h; rfl
  | cons n q ih =>
    intro p t u h
    cases t with
    | mk c ss =>
      rw [List.cons_append]
      simp only [atPath] at h ⊢
      split at h
      · cases h
      · rename_i s hs; exact ih p s u h

theorem under_path {r u : CRef K} (h : Under r u) : ∃ q, u.path = r.path ++ q ∧ atPath r.cl q = some u.cl := by
  induction h with
  | refl => exact ⟨[], by simp, by cases r.cl <;> rfl⟩
  | @son t i _ ih =>
    obtain ⟨q, h1, h2⟩ := ih
    refine ⟨q ++ [i.1], by simp [CRef.son, h1], ?_⟩
    rw [atPath_append q _ _ _ h2]
    obtain ⟨p, t⟩ := t
    cases t with
    | mk c ss =>
      simp only [atPath]
      have : ss[i.1]? = some ((CRef.son ⟨p, .mk c ss⟩ i).cl) := by
        exact List.getElem?_eq_getElem (l := ss) i.2
      rw [this]

theorem under_descExact {r u : CRef K} (h : Under r u) (hd : DescExact r.cl) : DescExact u.cl := by
  induction h with
  | refl => exact hd
  | son i _ ih => exact descExact_son ih i

theorem refIndex_self (r : CRef K) : refIndex r r = 0 := by
  unfold refIndex
  rw [List.drop_length]; exact cpaths_nil _

theorem refIndex_naming (r : CRef K) (n : Nat) (hd : DescExact r.cl) :
    IsNaming (fun t => n + refIndex r t) r := by
  intro u hu i
  obtain ⟨q, h1, h2⟩ := under_path hu
  obtain ⟨h3, h4⟩ := cpaths_son_idx q r.cl u.cl h2 hd
  obtain ⟨h5, _⟩ := h4 i.1 i.2
  have hdu := under_descExact hu hd
  unfold refIndex Block.sonName
  have e1 : (u.son i).path.drop r.path.length = q ++ [i.1] := by
    simp [CRef.son, h1]
  have e2 : u.path.drop r.path.length = q := by simp [h1]
  simp only [e1, e2]
  rw [h5, foldl_desc_start, foldl_desc_nodes]
  · omega
  · intro s hs
    have hs' := List.mem_of_mem_take hs
    obtain ⟨p, t⟩ := u
    cases t with
    | mk c ss => exact (descExact_mk.1 hdu).2 _ hs'

/-! ### one level of a block tree, all kinds of splits at once -/

/-- the rows (or columns) of a block with sons: `r i` is the cluster of row `i`; `whole` tells whether the
cluster is kept -/
structure Split (t : CRef K) (n : Nat) (r : Fin n → CRef K) (whole : Bool) : Prop where
  under : ∀ i, Under t (r i)
  same : ∀ i, (r i).same t = whole
  sons : whole = false → ∃ h : n = t.nsons, ∀ i, r i = t.son (i.cast h)
  self : whole = true → n = 1 ∧ ∀ i, r i = t
  pos : 0 < n

theorem same_self (t : CRef K) : t.same t = true := by simp [CRef.same]
theorem same_son_false (t : CRef K) (i : Fin t.nsons) : (t.son i).same t = false := by
  simp [CRef.same, CRef.son]

theorem split_self (t : CRef K) : Split t 1 (fun _ => t) true :=
  ⟨fun _ => .refl, fun _ => same_self t, fun h => (by cases h), fun _ => ⟨rfl, fun _ => rfl⟩, Nat.one_pos⟩

theorem split_sons (t : CRef K) (h : 0 < t.nsons) : Split t t.nsons t.son false :=
  ⟨fun i => .son i .refl, same_son_false t, fun _ => ⟨rfl, fun _ => rfl⟩, fun h => (by cases h), h⟩

/-- number of the `i`-th row -/
def Split.at (f : CRef K → Nat) (t : CRef K) (whole : Bool) (i : Nat) : Nat :=
  if whole then f t + (if i = 0 then 0 else t.cl.desc) else Block.sonName t (f t) i

theorem Split.at_zero (f : CRef K → Nat) (t : CRef K) (whole : Bool) :
    Split.at f t whole 0 = if whole then f t else f t + 1 := by
  unfold Split.at; cases whole <;> simp [sonName_zero]

theorem Split.at_succ {f : CRef K → Nat} {t : CRef K} {n : Nat} {r : Fin n → CRef K} {whole : Bool}
    (h : Split t n r whole) (i : Fin n) :
    Split.at f t whole (i.1 + 1) = Split.at f t whole i.1 + (r i).cl.desc := by
  unfold Split.at
  cases hw : whole with
  | true =>
    obtain ⟨e, h2⟩ := h.self hw
    subst e
    have : i.1 = 0 := by omega
    simp [h2]
  | false =>
    obtain ⟨e, h2⟩ := h.sons hw
    subst e
    simp only [Bool.false_eq_true, if_false, h2 i]
    exact sonName_succ t (f t) i

theorem Split.at_name {f : CRef K → Nat} {t : CRef K} {n : Nat} {r : Fin n → CRef K} {whole : Bool}
    (h : Split t n r whole) (hf : IsNaming f t) (i : Fin n) : f (r i) = Split.at f t whole i.1 := by
  unfold Split.at
  cases hw : whole with
  | true =>
    obtain ⟨e, h2⟩ := h.self hw
    subst e
    have : i.1 = 0 := by omega
    simp [h2]
  | false =>
    obtain ⟨e, h2⟩ := h.sons hw
    subst e
    simp only [Bool.false_eq_true, if_false, h2 i]
    exact hf t .refl i

theorem Split.at_last {f : CRef K → Nat} {t : CRef K} {n : Nat} {r : Fin n → CRef K} {whole : Bool}
    (h : Split t n r whole) (hd : DescExact t.cl) : Split.at f t whole n = f t + t.cl.desc := by
  unfold Split.at
  cases hw : whole with
  | true => obtain ⟨e, h2⟩ := h.self hw; subst e; simp
  | false =>
    obtain ⟨e, h2⟩ := h.sons hw
    subst e
    simp only [Bool.false_eq_true, if_false]
    exact sonName_last t (f t) hd

theorem Split.naming {f : CRef K → Nat} {t : CRef K} {n : Nat} {r : Fin n → CRef K} {whole : Bool}
    (h : Split t n r whole) (hf : IsNaming f t) (i : Fin n) : IsNaming f (r i) :=
  fun u hu => hf u (Under.trans (h.under i) hu)

theorem Split.desc {t : CRef K} {n : Nat} {r : Fin n → CRef K} {whole : Bool}
    (h : Split t n r whole) (hd : DescExact t.cl) (i : Fin n) : DescExact (r i).cl :=
  under_descExact (h.under i) hd

theorem blockTree_split {rc cc rc' cc' : CRef K} {a : Bool} {d m n : Nat} {son : Fin m → Fin n → Block K}
    (h : BlockTree rc cc (.mk rc' cc' a d m n son)) : rc' = rc ∧ cc' = cc ∧
    ((m = 0 ∧ n = 0) ∨ ∃ rr cr wr wc, Split rc m rr wr ∧ Split cc n cr wc ∧ (wr = false ∨ wc = false) ∧
      ∀ i j, BlockTree (rr i) (cr j) (son i j)) := by
  cases h with
  | leaf => exact ⟨rfl, rfl, .inl ⟨rfl, rfl⟩⟩
  | both h1 h2 hs => exact ⟨rfl, rfl, .inr ⟨_, _, _, _, split_sons rc h1, split_sons cc h2, .inl rfl, hs⟩⟩
  | rows h1 hs =>
    exact ⟨rfl, rfl, .inr ⟨_, _, _, _, split_sons rc h1, split_self cc, .inl rfl, hs⟩⟩
  | cols h1 hs =>
    exact ⟨rfl, rfl, .inr ⟨_, _, _, _, split_self rc, split_sons cc h1, .inr rfl, hs⟩⟩

end H2

namespace H2
open Spec
variable {K : Type _}

theorem cpathsL_atPath (c : CInfo K) (all : List (Cluster K)) : ∀ (ss : List (Cluster K)) (i : Nat),
    (∀ s ∈ ss, (cpaths s).map (atPath s) = (nodes s).map some) →
    (∀ k (h : k < ss.length), all[i + k]? = some ss[k]) →
    (cpathsL i ss).map (atPath (.mk c all)) = (ss.flatMap nodes).map some
  | [], _, _, _ => rfl
  | s :: ss, i, ih, h => by
    rw [cpathsL, List.map_append, List.flatMap_cons, List.map_append, List.map_map]
    have h0 : all[i]? = some s := h 0 (by simp)
    congr 1
    · rw [← ih s List.mem_cons_self]
      apply List.map_congr_left
      intro q _
      simp [atPath, h0]
    · apply cpathsL_atPath c all ss (i + 1) (fun s hs => ih s (List.mem_cons_of_mem _ hs))
      intro k hk
      have := h (k + 1) (by simpa using hk)
      rw [show i + 1 + k = i + (k + 1) by omega, this]; rfl

theorem cpaths_atPath (t : Cluster K) : (cpaths t).map (atPath t) = (nodes t).map some := by
  induction t using Cluster.ind with
  | h c ss ih =>
    rw [cpaths, nodes_mk, List.map_cons, List.map_cons,
      cpathsL_atPath c ss ss 0 ih (fun k h => by rw [Nat.zero_add, List.getElem?_eq_getElem h])]
    rfl

/-- the number of a cluster is its place in the enumeration -/
theorem refIndex_nodes {r u : CRef K} (h : Under r u) (hd : DescExact r.cl) :
    (nodes r.cl)[refIndex r u]? = some u.cl := by
  obtain ⟨q, h1, h2⟩ := under_path h
  have h3 := (cpaths_son_idx q r.cl u.cl h2 hd).1
  have e : u.path.drop r.path.length = q := by simp [h1]
  have h4 := congrArg (fun l => l[refIndex r u]?) (cpaths_atPath r.cl)
  simp only [List.getElem?_map] at h4
  have h5 : (cpaths r.cl)[refIndex r u]? = some q := by
    unfold refIndex
    rw [e, List.getElem?_eq_getElem (List.idxOf_lt_length_iff.2 h3), List.getElem_idxOf]
  rw [h5, Option.map_some, h2] at h4
  cases hh : (nodes r.cl)[refIndex r u]? with
  | none => rw [hh] at h4; cases h4
  | some x => rw [hh] at h4; simpa using h4.symm

/-- different clusters have different numbers -/
theorem refIndex_inj {r u v : CRef K} (hu : Under r u) (hv : Under r v) (hd : DescExact r.cl)
    (h : refIndex r u = refIndex r v) : u.path = v.path := by
  obtain ⟨q, h1, h2⟩ := under_path hu
  obtain ⟨q', h1', h2'⟩ := under_path hv
  have h3 := (cpaths_son_idx q r.cl u.cl h2 hd).1
  unfold refIndex at h
  rw [show u.path.drop r.path.length = q by simp [h1], show v.path.drop r.path.length = q' by simp [h1']] at h
  rw [h1, h1', (List.idxOf_inj h3).1 h]

end H2
