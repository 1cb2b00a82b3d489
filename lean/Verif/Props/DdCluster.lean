import Verif.Proof.DdCluster4
import Mathlib.Data.Rat.Defs
import Mathlib.Algebra.Order.Ring.Rat
import Mathlib.Algebra.Field.Rat
import Mathlib.Tactic.NormNum

/-!
# C69: domain decomposition clustering

`DdTree` and `Inseparable` are defined in `Verif/Spec/DdCluster.lean`, the other notions in `Spec/ClusterTree.lean`, `Spec/ClusterBuild.lean`, `Spec/Sparse.lean` and `Spec/Block.lean`.
-/

namespace H2.Props
open H2 H2.Spec H2.CB
variable {K : Type} [Field K] [LinearOrder K] [IsStrictOrderedRing K] {F : Type}

/-- C69: whenever `build_adaptive_dd_cluster` returns, the index array was only permuted inside of the segment, the tree is a consistent cluster tree of the segment with exact descendant counts and tight boxes, its
leaves are small (or contain only coincident points), domains are separated by interfaces, interfaces are minimal, and the flags are all zero again. -/
theorem C69_adaptive (g : Geom K) (clf dim : Nat) (sp : Sparse F) (flag : Arr Nat) (hsp : CSR sp) (hrows : sp.rows ≤ flag.n) (hcols : sp.cols ≤ flag.n)
    (hflag : ∀ c, flag.v c = 0) (f : Nat) (st : St K) (off size : Nat) (hidx : ∀ i < size, st.idx (off + i) < sp.rows)
    (st' : St K) (flag' : Arr Nat) (t : Cluster K) (h : buildAdaptiveDd g clf dim sp f st flag off size = .ok (st', flag', t)) :
    SegRearranged off size st.idx st'.idx ∧ t.off = off ∧ t.size = size ∧ Consistent t ∧ DescExact t ∧
    (∀ s ∈ nodes t, BoxTight g.smin g.smax g.dim st'.idx s) ∧
    (∀ s ∈ nodes t, (s.sons = [] → s.size ≤ clf ∨ AllCoincide g.x g.dim st'.idx s.off s.size) ∧ (s.sons ≠ [] → clf < s.size)) ∧
    DdTree (fun p q => HasPos sp (st'.idx p) (st'.idx q)) t ∧ flag' = flag := by
  obtain ⟨h1, h2⟩ := adaptiveDd_good g clf dim sp flag ⟨hsp, hcols, hrows⟩ hflag f st off size st' flag' t hidx h
  exact ⟨h1.good.perm, h1.good.toff, h1.good.tsize, h1.good.cons, h1.good.desc, h1.good.box, h1.res, h1.dd, h2⟩

/-- C69: the same for `build_regular_dd_cluster`, for every starting direction and scratch box. -/
theorem C69_regular (g : Geom K) (clf dim : Nat) (sp : Sparse F) (flag : Arr Nat) (hsp : CSR sp) (hrows : sp.rows ≤ flag.n) (hcols : sp.cols ≤ flag.n)
    (hflag : ∀ c, flag.v c = 0) (f : Nat) (st : St K) (off size dir : Nat) (hidx : ∀ i < size, st.idx (off + i) < sp.rows)
    (st' : St K) (flag' : Arr Nat) (t : Cluster K) (h : buildRegularDd g clf dim sp f st flag off size dir = .ok (st', flag', t)) :
    SegRearranged off size st.idx st'.idx ∧ t.off = off ∧ t.size = size ∧ Consistent t ∧ DescExact t ∧
    (∀ s ∈ nodes t, BoxTight g.smin g.smax g.dim st'.idx s) ∧
    (∀ s ∈ nodes t, (s.sons = [] → s.size ≤ clf ∨ AllCoincide g.x g.dim st'.idx s.off s.size) ∧ (s.sons ≠ [] → clf < s.size)) ∧
    DdTree (fun p q => HasPos sp (st'.idx p) (st'.idx q)) t ∧ flag' = flag := by
  obtain ⟨h1, h2⟩ := regularDd_good g clf dim sp flag ⟨hsp, hcols, hrows⟩ hflag f st off size dir st' flag' t hidx h
  exact ⟨h1.good.perm, h1.good.toff, h1.good.tsize, h1.good.cons, h1.good.desc, h1.good.box, h1.res, h1.dd, h2⟩

/-- C69: for at least two clustering dimensions `build_adaptive_dd_cluster` always stops, with a recursion depth of at most `2 * size + 1`: it returns, or it reaches the `assert(0)` "case never occurs"; the latter only if some set of more than
`clf` indices is cut by a coordinate plane such that every index on the right is connected to one on the left. -/
theorem C69_adaptive_stops (g : Geom K) (hdim : 0 < g.dim) (clf dim : Nat) (hd : 2 ≤ dim) (sp : Sparse F) (flag : Arr Nat) (hsp : CSR sp)
    (hrows : sp.rows ≤ flag.n) (hcols : sp.cols ≤ flag.n) (hflag : ∀ c, flag.v c = 0) (f : Nat) (st : St K) (off size : Nat) (hpos : 0 < size)
    (hf : 2 * size + 1 ≤ f) (hidx : ∀ i < size, st.idx (off + i) < sp.rows) :
    (∃ st' flag' t, buildAdaptiveDd g clf dim sp f st flag off size = .ok (st', flag', t)) ∨
    (buildAdaptiveDd g clf dim sp f st flag off size = .error .assertFail ∧ Inseparable g.x g.dim clf (HasPos sp) st.idx off size) := by
  rcases adaptiveDd_tot g hdim clf hd sp flag ⟨hsp, hcols, hrows⟩ hflag f st off size hpos hf hidx with ⟨st', t, e⟩ | h
  · exact .inl ⟨st', flag, t, e⟩
  · exact .inr h

/-- C69 (defect): the "impossible" case does occur: if more than `clf` indices are pairwise connected and do not all have the same point, the assertion fails. -/
theorem C69_adaptive_assert (g : Geom K) (hdim : 0 < g.dim) (clf dim : Nat) (sp : Sparse F) (flag : Arr Nat) (hsp : CSR sp)
    (hrows : sp.rows ≤ flag.n) (hcols : sp.cols ≤ flag.n) (hflag : ∀ c, flag.v c = 0) (f : Nat) (st : St K) (off size : Nat) (hclf : clf < size)
    (hidx : ∀ i < size, st.idx (off + i) < sp.rows) (hconn : ∀ i < size, ∀ k < size, HasPos sp (st.idx (off + i)) (st.idx (off + k)))
    (hne : ¬ AllCoincide g.x g.dim st.idx off size) :
    buildAdaptiveDd g clf dim sp (f + 1) st flag off size = .error .assertFail :=
  adaptiveDd_full g hdim clf dim sp flag ⟨hsp, hcols, hrows⟩ hflag f st off size hclf hidx hconn hne

/-- C69 (defect): with `dim = 1` the interface builders recurse forever for every interface with more than `clf` indices. -/
theorem C69_interface_dim_one (g : Geom K) (clf f : Nat) (st : St K) (off size : Nat) (hclf : clf < size) :
    (∀ lev, buildAdaptiveInterface g clf 1 f st off size lev = .error .fuel) ∧
    (∀ dir lev, buildRegularInterface g clf 1 f st off size dir lev = .error .fuel) :=
  interface_dim_one g clf f st off size hclf

/-- C69: the block trees built with `admissible_dd_cluster` for a domain decomposition tree and a matrix with symmetric pattern: the leaves partition the index pairs; a block is admissible iff the geometric condition holds or it
belongs to two different domain clusters; admissible blocks are leaves; and an admissible block that is not geometrically admissible contains no entry of the matrix. -/
theorem C69_blocks (adm : Cluster K → Cluster K → Bool) (sp : Sparse F) (idx : Nat → Nat) (hsym : ∀ i j, HasPos sp i j → HasPos sp j i) (t : Cluster K)
    (ht : Consistent t) (hdd : DdTree (fun p q => HasPos sp (idx p) (idx q)) t) :
    ∀ b ∈ [nonstrictP (admissibleDd adm) (CRef.root t) (CRef.root t), strictP (admissibleDd adm) (CRef.root t) (CRef.root t)],
      LeavesTile b ∧ ∀ s ∈ bnodes b,
        (s.a = true ↔ adm s.rc.cl s.cc.cl = true ∨ (s.rc.cl.info.type = 1 ∧ s.cc.cl.info.type = 1 ∧ s.rc.path ≠ s.cc.path)) ∧
        (s.a = true → s.rsons * s.csons = 0) ∧
        (s.a = true → adm s.rc.cl s.cc.cl = true ∨ ∀ p q, Covers s p q → ¬ HasPos sp (idx p) (idx q)) := by
  have hp : Pair (fun p q => HasPos sp (idx p) (idx q)) (CRef.root t) (CRef.root t) := .inl ⟨rfl, hdd⟩
  have h1 := nonstrictP_ok adm (fun p q h => hsym _ _ h) _ _ hp ht ht
  have h2 := strictP_ok adm (fun p q h => hsym _ _ h) _ _ hp ht ht
  intro b hb
  simp only [List.mem_cons, List.not_mem_nil, or_false] at hb
  rcases hb with rfl | rfl
  · exact ⟨blockTree_tile h1.2 ht ht, h1.1⟩
  · exact ⟨blockTree_tile h2.2 ht ht, h2.1⟩

/-- the pointer-aware builder agrees with `Block.buildNonstrict` (C13, C14) for conditions that do not compare pointers -/
theorem C69_nonstrict_same (admis : Cluster K → Cluster K → Bool) (rc cc : CRef K) :
    nonstrictP (fun s t => admis s.cl t.cl) rc cc = Block.buildNonstrict admis rc cc := nonstrictP_eq admis rc cc

/-! ## the hypotheses can be met -/

/-- tridiagonal 4 × 4 pattern -/
def ddSp : Sparse ℚ :=
  { rows := 4, cols := 4, nz := 10, row := ⟨5, fun i => [0, 2, 5, 8, 10].getD i 0⟩, col := ⟨10, fun i => [0, 1, 0, 1, 2, 1, 2, 3, 2, 3].getD i 0⟩,
    coeff := ⟨10, fun _ => 1⟩ }
/-- the points 0, 1, 2, 3 on a line -/
def ddGeom : Geom ℚ := { dim := 1, x := fun i _ => i, smin := fun i _ => i - 1, smax := fun i _ => i + 1, w := fun _ => 1 }
def ddSt : St ℚ := { idx := fun i => 3 - i, hmin := fun _ => 0, hmax := fun _ => 3 }
def ddFlag : Arr Nat := ⟨4, fun _ => 0⟩
/-- type and segment of all clusters, and the final index array -/
def ddShow (r : R (St ℚ × Arr Nat × Cluster ℚ)) : Option (List (Nat × Nat × Nat) × List Nat) :=
  r.toOption.map fun r => ((nodes r.2.2).map fun u => (u.info.type, u.off, u.size), (List.range 4).map r.1.idx)

theorem ddSp_csr : CSR ddSp := by
  refine ⟨rfl, rfl, rfl, rfl, ?_, rfl, ?_, ?_⟩
  · intro i hi
    have hi : i < 4 := hi
    interval_cases i <;> decide
  · intro k hk
    have hk : k < 10 := hk
    interval_cases k <;> decide
  · intro i hi k l hk hl e
    have hi : i < 4 := hi
    obtain ⟨k1, k2⟩ := hk
    obtain ⟨l1, l2⟩ := hl
    interval_cases i <;> simp only [ddSp, List.getD_cons_zero, List.getD_cons_succ] at k1 k2 l1 l2 e <;>
      interval_cases k <;> interval_cases l <;> simp_all

/-- both builders separate {0,1} and {3} by {2} -/
example : ddShow (buildAdaptiveDd ddGeom 2 2 ddSp 9 ddSt ddFlag 0 4) = some ([(1, 0, 4), (1, 0, 2), (1, 2, 1), (2, 3, 1)], [1, 0, 3, 2]) := by
  decide +kernel
example : ddShow (buildRegularDd ddGeom 2 1 ddSp 9 ddSt ddFlag 0 4 0) = some ([(1, 0, 4), (1, 0, 2), (1, 2, 1), (2, 3, 1)], [1, 0, 3, 2]) := by
  decide +kernel
/-- with `clf = 1` the two connected indices 0, 1 cannot be separated -/
example : (match buildAdaptiveDd ddGeom 1 2 ddSp 9 ddSt ddFlag 0 4 with | .error .assertFail => true | _ => false) = true := by decide +kernel

theorem ddSp_pos (i j : Nat) : HasPos ddSp i j ↔ i < 4 ∧ j < 4 ∧ i ≤ j + 1 ∧ j ≤ i + 1 := by
  constructor
  · rintro ⟨h1, k, ⟨h2, h3⟩, h4⟩
    have h1 : i < 4 := h1
    interval_cases i <;> simp only [ddSp, List.getD_cons_zero, List.getD_cons_succ] at h2 h3 h4 <;> interval_cases k <;> simp at h4 <;> omega
  · rintro ⟨h1, h2, h3, h4⟩
    refine ⟨h1, (if i = 0 then j else 2 + 3 * (i - 1) + (j + 1 - i)), ?_⟩
    interval_cases i <;> interval_cases j <;> first | omega | exact ⟨⟨by decide, by decide⟩, by decide⟩

theorem ddSt_idx (i : Nat) : ddSt.idx i < 4 := by show 3 - i < 4; omega

/-- the hypotheses of `C69_adaptive` and `C69_blocks` -/
example : ∃ st' flag' t, buildAdaptiveDd ddGeom 2 2 ddSp 9 ddSt ddFlag 0 4 = .ok (st', flag', t) ∧ Consistent t ∧
    DdTree (fun p q => HasPos ddSp (st'.idx p) (st'.idx q)) t ∧ ∀ i j, HasPos ddSp i j → HasPos ddSp j i := by
  rcases C69_adaptive_stops ddGeom (by decide) 2 2 (le_refl _) ddSp ddFlag ddSp_csr (le_refl _) (le_refl _) (fun _ => rfl) 9 ddSt 0 4 (by omega) (by omega)
    (fun i _ => ddSt_idx _) with ⟨st', flag', t, e⟩ | ⟨e, -⟩
  · have := C69_adaptive ddGeom 2 2 ddSp ddFlag ddSp_csr (le_refl _) (le_refl _) (fun _ => rfl) 9 ddSt 0 4 (fun i _ => ddSt_idx _) st' flag' t e
    refine ⟨st', flag', t, e, this.2.2.2.1, this.2.2.2.2.2.2.2.1, fun i j h => ?_⟩
    rw [ddSp_pos] at h ⊢
    omega
  · have h : (buildAdaptiveDd ddGeom 2 2 ddSp 9 ddSt ddFlag 0 4).toOption.isSome = true := by decide +kernel
    rw [e] at h
    cases h

/-- the hypotheses of `C69_adaptive_assert`: the two indices 0 and 1 -/
example (f : Nat) : buildAdaptiveDd ddGeom 1 2 ddSp (f + 1) ddSt ddFlag 2 2 = .error .assertFail := by
  refine C69_adaptive_assert ddGeom (by decide) 1 2 ddSp ddFlag ddSp_csr (le_refl _) (le_refl _) (fun _ => rfl) f ddSt 2 2 (by omega) (fun i _ => ddSt_idx _) ?_ ?_
  · intro i hi k hk
    rw [ddSp_pos]
    have e : ∀ i, ddSt.idx i = 3 - i := fun _ => rfl
    rw [e, e]
    omega
  · intro h
    have := h 0 (by omega) 1 (by omega) 0 (by decide)
    have e : ∀ i, ddSt.idx i = 3 - i := fun _ => rfl
    simp only [e, ddGeom] at this
    norm_num at this

end H2.Props
