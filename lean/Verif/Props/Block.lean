import Verif.Proof.BlockEnum

/-!
# C13-C17, C52: block trees

`BlockTree`, `LeavesTile`, `NonstrictLabel`, …, `expectedEntries` are defined in `Verif/Spec/Block.lean`.  The
admissibility condition is an arbitrary function of the two clusters.
-/

namespace H2.Props
open H2 H2.Spec
variable {K : Type}

/-! ## C13 -/

/-- C13: the leaves of the trees returned by `build_nonstrict_block` and `build_strict_block` partition
rows × columns, for every admissibility condition and all consistent cluster trees. -/
theorem C13_leaves_partition (admis : Cluster K → Cluster K → Bool) (rc cc : CRef K)
    (hr : Consistent rc.cl) (hc : Consistent cc.cl) :
    LeavesTile (Block.buildNonstrict admis rc cc) ∧ LeavesTile (Block.buildStrict admis rc cc) :=
  ⟨blockTree_tile (nonstrict_blockTree admis rc cc) hr hc, blockTree_tile (strict_blockTree admis rc cc) hr hc⟩

/-- C13: the root of the tree belongs to the given clusters, and the tree has exact `desc` fields. -/
theorem C13_root (admis : Cluster K → Cluster K → Bool) (rc cc : CRef K) :
    (∀ b ∈ [Block.buildNonstrict admis rc cc, Block.buildStrict admis rc cc],
      b.rc = rc ∧ b.cc = cc ∧ BlockTree rc cc b ∧ BDescExact b) := by
  intro b hb
  have h : BlockTree rc cc b ∧ BDescExact b := by
    simp only [List.mem_cons, List.not_mem_nil, or_false] at hb
    rcases hb with rfl | rfl
    · exact ⟨nonstrict_blockTree .., nonstrict_desc _ _ _⟩
    · exact ⟨strict_blockTree .., strict_desc _ _ _⟩
  exact ⟨(blockTree_refs h.1).1, (blockTree_refs h.1).2, h⟩

/-! ## C14 -/

/-- C14: every block of a nonstrict tree carries the result of the admissibility test and is subdivided iff the test
failed and both clusters have sons. -/
theorem C14_nonstrict_labels (admis : Cluster K → Cluster K → Bool) (rc cc : CRef K) :
    ∀ s ∈ bnodes (Block.buildNonstrict admis rc cc), NonstrictLabel admis s := nonstrict_label admis rc cc

/-- C14: every block of a strict tree carries the result of the admissibility test and is subdivided iff the test
failed and at least one cluster has sons. -/
theorem C14_strict_labels (admis : Cluster K → Cluster K → Bool) (rc cc : CRef K) :
    ∀ s ∈ bnodes (Block.buildStrict admis rc cc), StrictLabel admis s := strict_label admis rc cc

/-! ## C15 -/

/-- C15: if along the diagonal column clusters never have more sons than row clusters — in particular for a single
cluster tree — both lower triangular builders succeed. -/
theorem C15_lower_succeeds (admis : Cluster K → Cluster K → Bool) (rc cc : CRef K)
    (h : DiagFits rc.cl cc.cl ∨ rc.cl = cc.cl) :
    (∃ b, Block.buildNonstrictLower admis rc cc = .ok b) ∧ ∃ b, Block.buildStrictLower admis rc cc = .ok b := by
  have h : DiagFits rc.cl cc.cl := h.elim id (fun e => e ▸ diagFits_self rc.cl)
  obtain ⟨b, hb, _⟩ := nonstrictLower_tot admis rc cc h
  obtain ⟨b', hb', _⟩ := strictLower_tot admis rc cc h
  exact ⟨⟨b, hb⟩, b', hb'⟩

/-- C15: whenever they succeed, the leaves partition rows × columns. -/
theorem C15_lower_partition (admis : Cluster K → Cluster K → Bool) (rc cc : CRef K) (b : Block K)
    (hr : Consistent rc.cl) (hc : Consistent cc.cl)
    (h : Block.buildNonstrictLower admis rc cc = .ok b ∨ Block.buildStrictLower admis rc cc = .ok b) :
    BlockTree rc cc b ∧ BDescExact b ∧ LeavesTile b := by
  have h : BlockTree rc cc b ∧ BDescExact b :=
    h.elim (nonstrictLower_blockTree admis rc cc b) (strictLower_blockTree admis rc cc b)
  exact ⟨h.1, h.2, blockTree_tile h.1 hr hc⟩

/-- C15: for a single cluster tree all blocks strictly above the diagonal are leaves marked admissible, all others
are labelled as in `build_nonstrict_block` resp. `build_strict_block`. -/
theorem C15_lower_labels (admis : Cluster K → Cluster K → Bool) (t : CRef K) (b : Block K)
    (ht : Consistent t.cl) (hp : 0 < t.cl.size) :
    (Block.buildNonstrictLower admis t t = .ok b → ∀ s ∈ bnodes b, LowerLabel (NonstrictLabel admis) s) ∧
    (Block.buildStrictLower admis t t = .ok b → ∀ s ∈ bnodes b, LowerLabel (StrictLabel admis) s) :=
  ⟨nonstrictLower_label admis t t b rfl ht hp, strictLower_label admis t t b rfl ht hp⟩

/-- C15: the restriction is needed: if the root block is not admissible and the column cluster has more sons than the
row cluster (which has some), both builders access memory out of bounds. -/
theorem C15_lower_out_of_bounds (admis : Cluster K → Cluster K → Bool) (rc cc : CRef K)
    (ha : admis rc.cl cc.cl = false) (h0 : 0 < rc.nsons) (hlt : rc.nsons < cc.nsons) :
    (∀ b, Block.buildNonstrictLower admis rc cc ≠ .ok b) ∧ ∀ b, Block.buildStrictLower admis rc cc ≠ .ok b := by
  constructor
  · intro b h
    rcases nonstrictLower_ind h with ⟨_, h1⟩ | ⟨_, _, h1⟩ | ⟨_, _, _, h1, _⟩
    · rw [ha] at h1; cases h1
    · rw [← nsons_zero, ← nsons_zero] at h1; omega
    · omega
  · intro b h
    rcases strictLower_ind h with ⟨_, h1⟩ | ⟨_, _, _, h1, _⟩
    · rw [ha, ← nsons_zero, ← nsons_zero] at h1
      rcases h1 with h1 | h1 | h1
      · cases h1
      · omega
      · omega
    · omega

/-! ## C16 -/

/-- C16: `enumerate_block` succeeds and entry `k` is the `k`-th block in preorder. -/
theorem C16_enumerate (b : Block K) (h : BDescExact b) :
    ∃ bn, b.enumerateBlock = .ok bn ∧ ∀ k, bn k = (bnodes b)[k]? := by
  have hd := h b (mem_bnodes_self b)
  refine ⟨_, enumerate_tot b.desc b h 0 _ (by omega), fun k => ?_⟩
  simp only [putList, Nat.zero_le, true_and, Nat.zero_add, Nat.sub_zero]
  split
  · rfl
  · rw [List.getElem?_eq_none (by omega)]

/-- C16: `iterate_block(b, bname, rname, cname, …)` succeeds, makes one `pre` callback for each block, in preorder, and
one `post` callback for each block, with the expected numbers. -/
theorem C16_iterate (b : Block K) (h : BlockOK b) (bname rname cname : Nat) :
    ∃ r, b.iterate bname rname cname = .ok r ∧ pres r = expectedEntries b bname rname cname ∧
      (posts r).Perm (expectedEntries b bname rname cname) := iterate_expected h bname rname cname

/-- C16: every schedule of `iterate_byrow_block` makes, in some order, exactly the same callbacks, and no assertion
prevents it from running to its end. -/
theorem C16_byrow (b : Block K) (h : BlockOK b) (bname rname cname pardepth : Nat) :
    (∃ r, Block.ByRowTrace b bname rname cname pardepth r) ∧
    ∀ r, Block.ByRowTrace b bname rname cname pardepth r →
      (pres r).Perm (expectedEntries b bname rname cname) ∧
      (posts r).Perm (expectedEntries b bname rname cname) :=
  ⟨byrow_exists h _ _ _ _, fun _ hr => byrow_visits h hr⟩

/-- C16: the same for `iterate_bycol_block`. -/
theorem C16_bycol (b : Block K) (h : BlockOK b) (bname rname cname pardepth : Nat) :
    (∃ r, Block.ByColTrace b bname rname cname pardepth r) ∧
    ∀ r, Block.ByColTrace b bname rname cname pardepth r →
      (pres r).Perm (expectedEntries b bname rname cname) ∧
      (posts r).Perm (expectedEntries b bname rname cname) :=
  ⟨bycol_exists h _ _ _ _, fun _ hr => bycol_visits h hr⟩

/-- C16: the expected numbers, for a call with `bname = rname = cname = 0`: the number of the block is its index in
the list of all blocks (`enumerate_block`, `C16_enumerate`), the numbers of its clusters are their indices in the
list of all clusters (`enumerate_cluster`, `C12_enumerate`), different clusters having different numbers. -/
theorem C16_numbers (b : Block K) (h : BlockOK b) :
    (∀ e ∈ expectedEntries b 0 0 0, (bnodes b)[e.bname]? = some e.b ∧
      (nodes b.rc.cl)[e.rname]? = some e.b.rc.cl ∧ (nodes b.cc.cl)[e.cname]? = some e.b.cc.cl) ∧
    (∀ e ∈ expectedEntries b 0 0 0, ∀ e' ∈ expectedEntries b 0 0 0,
      (e.rname = e'.rname ↔ e.b.rc.path = e'.b.rc.path) ∧ (e.cname = e'.cname ↔ e.b.cc.path = e'.b.cc.path)) := by
  have key : ∀ e ∈ expectedEntries b 0 0 0, (bnodes b)[e.bname]? = some e.b ∧ e.rname = refIndex b.rc e.b.rc ∧
      e.cname = refIndex b.cc e.b.cc ∧ Under b.rc e.b.rc ∧ Under b.cc e.b.cc := by
    intro e he
    obtain ⟨⟨s, k⟩, hp, rfl⟩ := List.mem_map.1 he
    have hk : (bnodes b)[k]? = some s := by
      have := List.mem_zipIdx_iff_getElem?.1 hp
      simpa using this
    obtain ⟨u1, u2⟩ := bnodes_under h.tree s (List.mem_of_getElem? hk)
    exact ⟨hk, by simp, by simp, u1, u2⟩
  refine ⟨fun e he => ?_, fun e he e' he' => ?_⟩
  · obtain ⟨h1, h2, h3, u1, u2⟩ := key e he
    exact ⟨h1, h2 ▸ refIndex_nodes u1 h.rdesc, h3 ▸ refIndex_nodes u2 h.cdesc⟩
  · obtain ⟨_, h2, h3, u1, u2⟩ := key e he
    obtain ⟨_, h2', h3', u1', u2'⟩ := key e' he'
    rw [h2, h2', h3, h3']
    refine ⟨⟨refIndex_inj u1 u1' h.rdesc, fun e => ?_⟩, ⟨refIndex_inj u2 u2' h.cdesc, fun e => ?_⟩⟩
    · unfold refIndex; rw [e]
    · unfold refIndex; rw [e]

/-! ## C17 -/

theorem inRows_iff (e : BEvent K) (i : Nat) : InRows e i ↔ InC e.entry.b.rc i := by cases e <;> rfl
theorem inCols_iff (e : BEvent K) (i : Nat) : InCols e i ↔ InC e.entry.b.cc i := by cases e <;> rfl

/-- C17: two callbacks of `iterate_byrow_block` whose order depends on the schedule (or on `pardepth`) work on
disjoint sets of rows. -/
theorem C17_byrow_race_free (b : Block K) (h : BlockOK b) (bname rname cname pd pd' : Nat) (r r' : List (BEvent K))
    (hr : Block.ByRowTrace b bname rname cname pd r) (hr' : Block.ByRowTrace b bname rname cname pd' r')
    (x y : BEvent K) (h1 : Precedes r x y) (h2 : Precedes r' y x) : ∀ i, ¬ (InRows x i ∧ InRows y i) := by
  intro i
  rw [inRows_iff, inRows_iff]
  exact byrow_race h hr hr' h1 h2 i

/-- C17: the same for `iterate_bycol_block` and columns. -/
theorem C17_bycol_race_free (b : Block K) (h : BlockOK b) (bname rname cname pd pd' : Nat) (r r' : List (BEvent K))
    (hr : Block.ByColTrace b bname rname cname pd r) (hr' : Block.ByColTrace b bname rname cname pd' r')
    (x y : BEvent K) (h1 : Precedes r x y) (h2 : Precedes r' y x) : ∀ i, ¬ (InCols x i ∧ InCols y i) := by
  intro i
  rw [inCols_iff, inCols_iff]
  exact bycol_race h hr hr' h1 h2 i

theorem actsOn_comm {V : Type _} {I : BEvent K → Nat → Prop} {act : BEvent K → (Nat → V) → (Nat → V)}
    (ha : ActsOn I act) (x y : BEvent K) (hxy : ∀ i, ¬ (I x i ∧ I y i)) (s : Nat → V) :
    act x (act y s) = act y (act x s) := by
  funext i
  by_cases hx : I x i
  · have hy : ¬ I y i := fun hy => hxy i ⟨hx, hy⟩
    rw [(ha y).1 _ i hy]
    exact (ha x).2 _ _ (fun k hk => (ha y).1 _ k (fun hy => hxy k ⟨hk, hy⟩)) i hx
  · rw [(ha x).1 _ i hx]
    by_cases hy : I y i
    · exact ((ha y).2 _ _ (fun k hk => (ha x).1 _ k (fun hx => hxy k ⟨hx, hk⟩)) i hy).symm
    · rw [(ha y).1 _ i hy, (ha y).1 _ i hy, (ha x).1 _ i hx]

/-- C17: callbacks that only access entries of an array belonging to the rows of their block produce the same result
under all schedules and for all values of `pardepth`. -/
theorem C17_byrow_deterministic (b : Block K) (h : BlockOK b) {V : Type} (act : BEvent K → (Nat → V) → (Nat → V))
    (ha : ActsOn InRows act) (bname rname cname pd pd' : Nat) (r r' : List (BEvent K))
    (hr : Block.ByRowTrace b bname rname cname pd r) (hr' : Block.ByRowTrace b bname rname cname pd' r')
    (s : Nat → V) : runTrace act r s = runTrace act r' s :=
  byrow_run h (fun x y hxy => actsOn_comm ha x y (fun i hi => hxy i ⟨(inRows_iff x i).1 hi.1, (inRows_iff y i).1 hi.2⟩))
    hr hr' s

/-- C17: the same for `iterate_bycol_block` and columns. -/
theorem C17_bycol_deterministic (b : Block K) (h : BlockOK b) {V : Type} (act : BEvent K → (Nat → V) → (Nat → V))
    (ha : ActsOn InCols act) (bname rname cname pd pd' : Nat) (r r' : List (BEvent K))
    (hr : Block.ByColTrace b bname rname cname pd r) (hr' : Block.ByColTrace b bname rname cname pd' r')
    (s : Nat → V) : runTrace act r s = runTrace act r' s :=
  bycol_run h (fun x y hxy => actsOn_comm ha x y (fun i hi => hxy i ⟨(inCols_iff x i).1 hi.1, (inCols_iff y i).1 hi.2⟩))
    hr hr' s

/-! ## C52 -/

/-- C52: `enumerate_level_block` succeeds and entry `k` is the level of the `k`-th block, the root having level 1. -/
theorem C52_enumerate_level (b : Block K) (h : BDescExact b) :
    (∃ bln, b.enumerateLevelBlock = .ok bln ∧ ∀ k, bln k = (blevels 1 b)[k]?) ∧
    (blevels 1 b).length = (bnodes b).length := by
  have hd := h b (mem_bnodes_self b)
  have hl := blevels_length b 1
  refine ⟨⟨_, enumerateLevel_tot b.desc b h 0 _ 0 (by omega), fun k => ?_⟩, hl⟩
  simp only [putList, Nat.zero_le, true_and, Nat.zero_add, Nat.sub_zero]
  split
  · rfl
  · rw [List.getElem?_eq_none (by omega)]

/-- C52: `getdepth_block` returns the largest distance of a block from the root. -/
theorem C52_getdepth (b : Block K) : (∀ x ∈ blevels 0 b, x ≤ b.getdepth) ∧ b.getdepth ∈ blevels 0 b :=
  getdepth_max b

/-- C52: `compute_csp_block` returns the largest number of blocks sharing a row cluster or sharing a column
cluster. -/
theorem C52_compute_csp (b : Block K) (h : BlockOK b) :
    ∃ c, b.computeCsp = .ok c ∧ (∀ i < b.rc.cl.desc, rowCount b i ≤ c) ∧ (∀ i < b.cc.cl.desc, colCount b i ≤ c) ∧
      ((∃ i < b.rc.cl.desc, rowCount b i = c) ∨ ∃ i < b.cc.cl.desc, colCount b i = c) := computeCsp_ok h

/-! ## Non-vacuity -/

/-- All trees built by the four builders from consistent cluster trees satisfy `BlockOK`. -/
theorem C16_builders_ok (admis : Cluster K → Cluster K → Bool) (rc cc : CRef K) (hr : Consistent rc.cl)
    (hc : Consistent cc.cl) (hdr : DescExact rc.cl) (hdc : DescExact cc.cl) :
    BlockOK (Block.buildNonstrict admis rc cc) ∧ BlockOK (Block.buildStrict admis rc cc) ∧
    (∀ b, Block.buildNonstrictLower admis rc cc = .ok b → BlockOK b) ∧
    (∀ b, Block.buildStrictLower admis rc cc = .ok b → BlockOK b) := by
  have key : ∀ b, BlockTree rc cc b → BDescExact b → BlockOK b := by
    intro b h1 h2
    obtain ⟨e1, e2⟩ := blockTree_refs h1
    exact ⟨by rwa [e1, e2], h2, by rwa [e1], by rwa [e2], by rwa [e1], by rwa [e2]⟩
  exact ⟨key _ (nonstrict_blockTree ..) (nonstrict_desc _ _ _), key _ (strict_blockTree ..) (strict_desc _ _ _),
    fun b h => key b (nonstrictLower_blockTree admis rc cc b h).1 (nonstrictLower_blockTree admis rc cc b h).2,
    fun b h => key b (strictLower_blockTree admis rc cc b h).1 (strictLower_blockTree admis rc cc b h).2⟩

/-- a cluster with two sons -/
def bex : Cluster Nat :=
  let z : Nat → Nat := fun _ => 0
  .mk ⟨0, 5, 1, z, z, 3, 0⟩ [.mk ⟨0, 2, 1, z, z, 1, 0⟩ [], .mk ⟨2, 3, 1, z, z, 1, 0⟩ []]

theorem bex_ok : Consistent bex ∧ DescExact bex ∧ 0 < bex.size := by
  refine ⟨?_, ?_, by decide⟩
  · unfold Consistent bex
    simp [nodes, nodesL, Tiles, Cluster.off, Cluster.size, Cluster.info, Cluster.sons]
  · unfold DescExact bex
    simp [nodes, nodesL, Cluster.desc, Cluster.info]

/-- a tree with five blocks satisfying the assumptions -/
example : BlockOK (Block.buildNonstrict (fun _ _ => false) (.root bex) (.root bex)) ∧
    (bnodes (Block.buildNonstrict (fun _ _ => false) (.root bex) (.root bex))).length = 5 := by
  refine ⟨(C16_builders_ok _ _ _ bex_ok.1 bex_ok.1 bex_ok.2.1 bex_ok.2.1).1, ?_⟩
  rw [Block.buildNonstrict, if_neg (by decide), if_neg (by decide)]
  unfold Block.build
  rw [bnodes_length]
  have : ∀ i j, bnodes (Block.buildNonstrict (fun _ _ => false) ((CRef.root bex).son i) ((CRef.root bex).son j)) =
      [Block.leaf ((CRef.root bex).son i) ((CRef.root bex).son j) false] := by
    intro i j
    rw [Block.buildNonstrict, if_neg (by decide), if_pos]
    · simp [Block.leaf, Block.build, bnodes]
    · have : ∀ i : Fin (CRef.root bex).nsons, ((CRef.root bex).son i).nsons = 0 := by decide
      rw [this]; simp
  simp only [this]
  decide

/-- a callback as in `C17_byrow_deterministic`: it adds `bname` to all rows of its block -/
noncomputable def addName (e : BEvent K) (s : Nat → Nat) : Nat → Nat := by
  classical exact fun i => (if InRows e i then s i + e.entry.bname else s i)

example : ActsOn (K := K) InRows (V := Nat) addName := by
  intro e
  refine ⟨fun s i hi => ?_, fun s s' h i hi => ?_⟩
  · simp [addName, hi]
  · simp [addName, hi, h i hi]

/-- two sons against three: `C15_lower_out_of_bounds` applies -/
example : ∃ rc cc : CRef Nat, 0 < rc.nsons ∧ rc.nsons < cc.nsons ∧ Consistent rc.cl ∧ Consistent cc.cl := by
  let z : Nat → Nat := fun _ => 0
  refine ⟨.root bex, .root (.mk ⟨0, 3, 1, z, z, 4, 0⟩ [.mk ⟨0, 1, 1, z, z, 1, 0⟩ [], .mk ⟨1, 1, 1, z, z, 1, 0⟩ [],
    .mk ⟨2, 1, 1, z, z, 1, 0⟩ []]), by decide, by decide, bex_ok.1, ?_⟩
  unfold Consistent
  simp [CRef.root, nodes, nodesL, Tiles, Cluster.off, Cluster.size, Cluster.info, Cluster.sons]

end H2.Props
