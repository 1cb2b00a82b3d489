import Verif.Proof.ClusterIter
import Verif.Proof.ClusterPath

/-! # C10 (descendants, depths), C11 (structure adaptation), C12 (numbering and iterators) -/

namespace H2.Props
open H2 H2.Spec
variable {K : Type _}

/-! ## C10 -/

/-- C10: `getdepth_cluster`/`getmindepth_cluster` return the largest/smallest distance of a leaf. -/
theorem C10_depths (t : Cluster K) :
    (LeafAt t t.getdepth ∧ ∀ d, LeafAt t d → d ≤ t.getdepth) ∧
    (LeafAt t t.getmindepth ∧ ∀ d, LeafAt t d → t.getmindepth ≤ d) :=
  ⟨getdepth_spec t, getmindepth_spec t⟩

/-- C10: each adaptation routine leaves exact `desc` fields everywhere (`cut`, `balance` and `coarsen` even
repair wrong ones; `extend` does not visit the clusters below `depth` and needs them exact). -/
theorem C10_desc_exact (t : Cluster K) (d m : Nat) :
    (DescExact t → DescExact (t.extend d)) ∧ DescExact (t.cut d) ∧ DescExact (t.balance d) ∧
    DescExact (t.coarsen m) :=
  ⟨extend_descExact t d, cut_descExact t d, balance_descExact t d, coarsen_descExact m t⟩

/-! ## C11 -/

/-- C11: in a consistent tree the leaves list every position of the root exactly once, in order. -/
theorem C11_leaves_partition (t : Cluster K) (h : Consistent t) :
    leafPositions t = List.range' t.off t.size ∧ (leafPositions t).Nodup := by
  rw [leafPositions_eq t h]; exact ⟨rfl, List.nodup_range'⟩

/-- C11: the adaptation routines keep a consistent tree consistent, with the same positions in its leaves. -/
theorem C11_adaptation_keeps_partition (t : Cluster K) (hp : 0 < t.size) (h : Consistent t) (d m : Nat) :
    ∀ t' ∈ [t.extend d, t.cut d, t.balance d, t.coarsen m],
      Consistent t' ∧ leafPositions t' = leafPositions t := by
  intro t' ht'
  have key : ∀ t' : Cluster K, Consistent t' → t'.off = t.off ∧ t'.size = t.size →
      Consistent t' ∧ leafPositions t' = leafPositions t := by
    intro t' hc hs
    rw [leafPositions_eq t' hc, leafPositions_eq t h, hs.1, hs.2]
    exact ⟨hc, rfl⟩
  simp only [List.mem_cons, List.not_mem_nil, or_false] at ht'
  rcases ht' with rfl | rfl | rfl | rfl
  · exact key _ (extend_consistent t d hp h) (extend_seg d t)
  · exact key _ (cut_consistent t d h) (cut_seg d t)
  · exact key _ (balance_consistent t d hp h) (balance_seg d t)
  · exact key _ (coarsen_consistent m t h) (coarsen_seg m t)

/-- C11: levels of the leaves after adaptation, and sizes of the sons after coarsening. -/
theorem C11_adaptation_levels (t : Cluster K) (d m : Nat) :
    (∀ l, LeafAt (t.balance d) l → l = d) ∧ (∀ l, LeafAt (t.cut d) l → l ≤ d) ∧
    (∀ l, LeafAt (t.extend d) l → d ≤ l) ∧
    (∀ s ∈ nodes (t.coarsen m), ∀ c ∈ s.sons, m ≤ c.size) :=
  ⟨balance_leafAt t d, cut_leafAt t d, extend_leafAt t d, coarsen_sizes m t⟩

/-- The routines do something: a leaf of level 0 becomes a leaf of level `d`. -/
theorem C11_balance_reaches_level (t : Cluster K) (d : Nat) : LeafAt (t.balance d) d := by
  have h := (C10_depths (t.balance d)).1.1
  have h2 := balance_leafAt t d _ h
  rwa [h2] at h

/-- C11, exact shape of the results: `dataAt t p` is what is found by following the path `p` of son numbers.
`cut` keeps exactly the paths of length at most `d`; `extend` keeps everything and lengthens the path of each leaf
by zeros up to length `d`; `balance` does both; `coarsen` keeps exactly the paths along which no cluster has a son
smaller than `m`. -/
theorem C11_adaptation_shape (t : Cluster K) (d m : Nat) (p : List Nat) :
    (dataAt (t.cut d) p = if p.length ≤ d then dataAt t p else none) ∧
    (∀ x, dataAt (t.extend d) p = some x ↔ dataAt t p = some x ∨
      ∃ q u k, atPath t q = some u ∧ u.sons = [] ∧ p = q ++ List.replicate k 0 ∧ p.length ≤ d ∧
        dataAt t q = some x) ∧
    (dataAt (t.balance d) p = if p.length ≤ d then dataAt (t.extend d) p else none) ∧
    ((dataAt (t.coarsen m) p).isSome ↔ (dataAt t p).isSome ∧
      ∀ k < p.length, ∀ u, atPath t (p.take k) = some u → ∀ c ∈ u.sons, m ≤ c.size) ∧
    ((dataAt (t.coarsen m) p).isSome → dataAt (t.coarsen m) p = dataAt t p) :=
  ⟨cut_path t d p, extend_path t d p, balance_path t d p, coarsen_path_iff m t p, coarsen_path m t p⟩

/-- One call of an adaptation routine. -/
inductive Adapt where
  | extend (d : Nat)
  | cut (d : Nat)
  | balance (d : Nat)
  | coarsen (m : Nat)

def Adapt.run (t : Cluster K) : Adapt → Cluster K
  | .extend d => t.extend d
  | .cut d => t.cut d
  | .balance d => t.balance d
  | .coarsen m => t.coarsen m

/-- C10, C11 over histories: after every sequence of adaptation calls the tree is consistent, lists the same
positions and has exact `desc` fields. -/
theorem C10_histories (ops : List Adapt) (t : Cluster K) (hp : 0 < t.size) (h : Consistent t)
    (hd : DescExact t) :
    Consistent (ops.foldl Adapt.run t) ∧ DescExact (ops.foldl Adapt.run t) ∧
    leafPositions (ops.foldl Adapt.run t) = leafPositions t ∧ (ops.foldl Adapt.run t).size = t.size := by
  induction ops generalizing t with
  | nil => exact ⟨h, hd, rfl, rfl⟩
  | cons op ops ih =>
    have hm : Adapt.run t op ∈ [Adapt.run t op] := List.mem_singleton.2 rfl
    have hc : Consistent (Adapt.run t op) ∧ leafPositions (Adapt.run t op) = leafPositions t := by
      cases op with
      | extend d => exact C11_adaptation_keeps_partition t hp h d 0 _ (by simp [Adapt.run])
      | cut d => exact C11_adaptation_keeps_partition t hp h d 0 _ (by simp [Adapt.run])
      | balance d => exact C11_adaptation_keeps_partition t hp h d 0 _ (by simp [Adapt.run])
      | coarsen m => exact C11_adaptation_keeps_partition t hp h 0 m _ (by simp [Adapt.run])
    have hsz : (Adapt.run t op).size = t.size := by
      cases op with
      | extend d => exact (extend_seg d t).2
      | cut d => exact (cut_seg d t).2
      | balance d => exact (balance_seg d t).2
      | coarsen m => exact (coarsen_seg m t).2
    have hde : DescExact (Adapt.run t op) := by
      cases op with
      | extend d => exact (C10_desc_exact t d 0).1 hd
      | cut d => exact (C10_desc_exact t d 0).2.1
      | balance d => exact (C10_desc_exact t d 0).2.2.1
      | coarsen m => exact (C10_desc_exact t 0 m).2.2.2
    obtain ⟨h1, h2, h3, h4⟩ := ih (Adapt.run t op) (by rw [hsz]; exact hp) hc.1 hde
    exact ⟨h1, h2, h3.trans hc.2, h4.trans hsz⟩

/-! ## C12 -/

/-- C12: `enumerate_cluster` succeeds (no assertion, no access outside of its array of `desc` entries) and entry
`k` is the `k`-th cluster in preorder; all `desc` entries are set. -/
theorem C12_enumerate (t : Cluster K) (h : DescExact t) :
    ∃ tn, t.enumerateCluster = .ok tn ∧ (∀ k, tn k = (nodes t)[k]?) ∧
      ∀ k, k < t.desc ↔ ∃ s, tn k = some s := by
  refine ⟨_, enumerate_ok t.desc t 0 (fun _ => none) h
    (by rw [h t (mem_nodes_self t)]; simp), ?_, ?_⟩
  · intro k
    simp only [Nat.zero_le, true_and, Nat.zero_add, Nat.sub_zero]
    split
    · rfl
    · rw [List.getElem?_eq_none (by omega)]
  · intro k
    rw [h t (mem_nodes_self t)]
    simp only [Nat.zero_le, true_and, Nat.zero_add, Nat.sub_zero]
    constructor
    · intro hk; rw [if_pos hk, List.getElem?_eq_getElem hk]; exact ⟨_, rfl⟩
    · rintro ⟨s, hs⟩
      by_contra hc
      rw [if_neg hc] at hs; cases hs

/-- C12: `iterate_cluster` succeeds and its trace is one of those of the parallel iterator (with
`pardepth = 0`); the parallel iterator can always run to its end. -/
theorem C12_iterate (t : Cluster K) (n : Nat) (h : DescExact t) :
    (∃ ev, t.iterate n = .ok ev ∧ Cluster.ParTrace t n 0 ev) ∧
    ∀ pd, ∃ r, Cluster.ParTrace t n pd r :=
  ⟨iterate_ok t n h, fun pd => partrace_exists t n pd h⟩

/-- C12: for every schedule `r` of `iterate_parallel_cluster(t, n, pd, …)`:
* the callbacks made are, up to order, one `pre` and one `post` per cluster, the `k`-th cluster in preorder
  being called with the number `n + k` (each number exactly once);
* the `pre` callback of a cluster precedes its `post` callback;
* the `pre` callback of a cluster precedes the `pre` callbacks of its descendants (numbers
  `n+k+1 … n+k+desc-1`), and its `post` callback follows theirs. -/
theorem C12_parallel (t : Cluster K) (n pd : Nat) (r : List (Cluster.Event K)) (h : DescExact t)
    (hr : Cluster.ParTrace t n pd r) :
    r.Perm (((nodes t).zipIdx n).map (fun p => Cluster.Event.pre p.1 p.2) ++
            ((nodes t).zipIdx n).map (fun p => Cluster.Event.post p.1 p.2)) ∧
    (∀ k s, (nodes t)[k]? = some s → Precedes r (.pre s (n + k)) (.post s (n + k))) ∧
    (∀ k s m u, (nodes t)[k]? = some s → (nodes t)[m]? = some u → k < m → m < k + s.desc →
      Precedes r (.pre s (n + k)) (.pre u (n + m)) ∧
      Precedes r (.post u (n + m)) (.post s (n + k))) :=
  ⟨trace_perm t n pd r h hr, (trace_order t n pd r h hr).2, (trace_order t n pd r h hr).1⟩

/-- Non-vacuity: a tree with a root, two sons and one grandson. -/
def exampleTree : Cluster Nat :=
  let z : Nat → Nat := fun _ => 0
  let l1 : Cluster Nat := .mk ⟨0, 2, 1, z, z, 1, 0⟩ []
  let l3 : Cluster Nat := .mk ⟨2, 3, 1, z, z, 1, 0⟩ []
  let l2 : Cluster Nat := .mk ⟨2, 3, 1, z, z, 2, 0⟩ [l3]
  .mk ⟨0, 5, 1, z, z, 4, 0⟩ [l1, l2]

example : Consistent exampleTree ∧ DescExact exampleTree ∧ 0 < exampleTree.size := by
  refine ⟨?_, ?_, by decide⟩
  · unfold Consistent exampleTree
    simp [nodes, nodesL, Tiles, Cluster.off, Cluster.size, Cluster.info, Cluster.sons]
  · unfold DescExact exampleTree
    simp [nodes, nodesL, Cluster.desc, Cluster.info]

end H2.Props
