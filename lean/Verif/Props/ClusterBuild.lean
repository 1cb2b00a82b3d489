import Verif.Proof.ClusterFuel
import Mathlib.Algebra.Order.Ring.Rat
import Mathlib.Data.Rat.Floor
import Mathlib.Tactic.NormNum

/-!
# C05-C09: geometric cluster construction

`buildCluster g eig f st off size clf mode` is `build_cluster` with recursion budget `f`: running out of budget is
the result `.error .fuel`.  `C05_budget_irrelevant` shows that the budget never changes a result, so "terminates"
is "returns `.ok` for some budget" and "does not terminate" is "`.error .fuel` for every budget".
-/

namespace H2.Props
open H2 H2.Spec H2.CB
variable {K : Type} [Field K] [LinearOrder K] [IsStrictOrderedRing K]

/-- `build_cluster` terminates normally. -/
def Terminates (g : Geom K) (eig : (Nat → Nat → K) → Nat → K) (st : St K) (off size clf : Nat) (mode : Mode) :
    Prop := ∃ f r, buildCluster g eig f st off size clf mode = .ok r

/-- `build_cluster` recurses for ever (no assertion fails, no stray access is made). -/
def Diverges (g : Geom K) (eig : (Nat → Nat → K) → Nat → K) (st : St K) (off size clf : Nat) (mode : Mode) :
    Prop := ∀ f, buildCluster g eig f st off size clf mode = .error .fuel

/-- Results do not depend on the budget; in particular a call does not both terminate and diverge. -/
theorem C05_budget_irrelevant (g : Geom K) (eig : (Nat → Nat → K) → Nat → K) {f f' : Nat} (hf : f ≤ f')
    (st : St K) (off size clf : Nat) (mode : Mode) (r : St K × Cluster K)
    (h : buildCluster g eig f st off size clf mode = .ok r) :
    buildCluster g eig f' st off size clf mode = .ok r :=
  build_mono g eig hf st off size clf mode h

/-- C05: adaptive clustering terminates normally, for every point set (recursion depth at most `size`), and
only rearranges the entries `idx[0], …, idx[size-1]` of the index array. -/
theorem C05_adaptive_terminates (g : Geom K) (hdim : 0 < g.dim) (eig : (Nat → Nat → K) → Nat → K)
    (st : St K) (off size clf : Nat) (hsize : 0 < size) (f : Nat) (hf : size ≤ f) :
    ∃ st' t, buildCluster g eig f st off size clf .adaptive = .ok (st', t) ∧
      SegRearranged off size st.idx st'.idx := by
  obtain ⟨st', t, h⟩ := adaptive_ok g hdim clf f st off size hsize hf
  exact ⟨st', t, h, (build_good g eig f st off size clf .adaptive st' t h).perm⟩

/-- C05 for the other modes: whenever they return, the index array has only been rearranged. -/
theorem C05_rearranges (g : Geom K) (eig : (Nat → Nat → K) → Nat → K) (f : Nat) (st : St K)
    (off size clf : Nat) (mode : Mode) (st' : St K) (t : Cluster K)
    (h : buildCluster g eig f st off size clf mode = .ok (st', t)) :
    SegRearranged off size st.idx st'.idx :=
  (build_good g eig f st off size clf mode st' t h).perm

/-- C06: trees returned by `build_cluster` cover the given positions; sons are non-empty consecutive segments of
their fathers, and the leaves list every position exactly once. -/
theorem C06_partition (g : Geom K) (eig : (Nat → Nat → K) → Nat → K) (f : Nat) (st : St K)
    (off size clf : Nat) (mode : Mode) (st' : St K) (t : Cluster K)
    (h : buildCluster g eig f st off size clf mode = .ok (st', t)) :
    t.off = off ∧ t.size = size ∧ Consistent t ∧ (∀ s ∈ nodes t, 0 < s.size) ∧
    leafPositions t = List.range' off size := by
  have hg := build_good g eig f st off size clf mode st' t h
  refine ⟨hg.toff, hg.tsize, hg.cons, fun s hs => ?_, ?_⟩
  · exact (nodes_inside t hg.cons (by rw [hg.tsize]; exact hg.pos) s hs).2.2
  · rw [leafPositions_eq t hg.cons, hg.toff, hg.tsize]

/-- C06 in terms of indices: if the given index array lists distinct indices, so do the leaves, and they list
exactly the given indices. -/
theorem C06_indices_once (g : Geom K) (eig : (Nat → Nat → K) → Nat → K) (f : Nat) (st : St K)
    (off size clf : Nat) (mode : Mode) (st' : St K) (t : Cluster K)
    (h : buildCluster g eig f st off size clf mode = .ok (st', t)) :
    ((leafPositions t).map st'.idx).Perm ((List.range' off size).map st.idx) := by
  rw [(C06_partition g eig f st off size clf mode st' t h).2.2.2.2]
  obtain ⟨σ, h1, h2⟩ := C05_rearranges g eig f st off size clf mode st' t h
  have he : (List.range' off size).map st'.idx = ((List.range' off size).map σ).map st.idx := by
    rw [List.map_map]; apply List.map_congr_left; intro a _; exact h2 a
  rw [he]
  apply List.Perm.map
  have hin : ∀ i, off ≤ i ∧ i < off + size → off ≤ σ i ∧ σ i < off + size := by
    intro i hi
    by_contra hc
    have := h1 (σ i) hc
    have h3 : σ i = i := σ.injective this
    rw [h3] at hc; exact hc hi
  apply List.Subperm.perm_of_length_le
  · apply List.subperm_of_subset
    · exact List.Nodup.map σ.injective List.nodup_range'
    · intro x hx
      obtain ⟨i, hi, rfl⟩ := List.mem_map.1 hx
      rw [List.mem_range'_1] at hi ⊢
      exact hin i hi
  · simp

/-- C07: adaptive clustering splits a cluster iff it is too large, except that clusters whose points all coincide
are not split. -/
theorem C07_resolution (g : Geom K) (eig : (Nat → Nat → K) → Nat → K) (f : Nat) (st : St K)
    (off size clf : Nat) (st' : St K) (t : Cluster K)
    (h : buildCluster g eig f st off size clf .adaptive = .ok (st', t)) :
    ∀ s ∈ nodes t,
      (s.sons = [] → s.size ≤ clf ∨ AllCoincide g.x g.dim st'.idx s.off s.size) ∧
      (s.sons ≠ [] → clf < s.size) :=
  adaptive_res g clf f st off size st' t h

/-- C08: in all four modes, every cluster of the returned tree has the smallest box containing the
supports of its indices. -/
theorem C08_boxes_tight (g : Geom K) (eig : (Nat → Nat → K) → Nat → K) (f : Nat) (st : St K)
    (off size clf : Nat) (mode : Mode) (st' : St K) (t : Cluster K)
    (h : buildCluster g eig f st off size clf mode = .ok (st', t)) :
    ∀ s ∈ nodes t, BoxTight g.smin g.smax g.dim st'.idx s :=
  (build_good g eig f st off size clf mode st' t h).box

/-- C10 after construction. -/
theorem C10_desc_built (g : Geom K) (eig : (Nat → Nat → K) → Nat → K) (f : Nat) (st : St K)
    (off size clf : Nat) (mode : Mode) (st' : St K) (t : Cluster K)
    (h : buildCluster g eig f st off size clf mode = .ok (st', t)) : DescExact t :=
  (build_good g eig f st off size clf mode st' t h).desc

theorem Dich.elim {α : Type _} {x : R α} {p : Prop} (h : Dich x (fun _ => ¬ p)) (hp : p) :
    x = .error .fuel := by
  rcases h with h | ⟨_, _, h⟩
  · exact h
  · exact absurd hp h

/-- C09, second half (the unconditional claim is false of the code): with more than `clf` points at the same place, regular, simultaneous and PCA
clustering recurse for ever. -/
theorem C09_diverges (g : Geom K) (hdim : 0 < g.dim) (eig : (Nat → Nat → K) → Nat → K)
    (st : St K) (off size clf : Nat) (hsize : 0 < size) (mode : Mode) (hm : mode ≠ .adaptive)
    (h : TooManyCoincide g.x g.dim clf st.idx off size) :
    Diverges g eig st off size clf mode := by
  intro f
  have hc : cassert (decide (0 < size)) = .ok () := cassert_true (decide_eq_true hsize)
  cases mode with
  | adaptive => exact absurd rfl hm
  | regular =>
    simp only [buildCluster, hc, ok_bind]
    exact Dich.elim (regular_dich g clf f (pointBbox g st off size) off size 0 hsize hdim) h
  | pca => exact Dich.elim (pca_dich g eig clf f st off size hsize) h
  | simsub =>
    simp only [buildCluster, hc, ok_bind]
    exact Dich.elim (simsub_dich g clf f (pointBbox g st off size) off size hsize
      (fun j _ => (bbox_spec g st off hsize j).2.2.2)) h

/-- C09: without such clumps regular clustering terminates (recursion depth at most
`size * dim + 1`). -/
theorem C09_regular_terminates (g : Geom K) (hdim : 0 < g.dim) (eig : (Nat → Nat → K) → Nat → K)
    (st : St K) (off size clf : Nat) (hsize : 0 < size)
    (h : ¬ TooManyCoincide g.x g.dim clf st.idx off size) :
    ∃ r, buildCluster g eig (size * g.dim + 1) st off size clf .regular = .ok r := by
  simp only [buildCluster, cassert_true (decide_eq_true hsize), ok_bind]
  have key : ∀ d, d < g.dim →
      (size ≤ clf ∨ 0 < (pointBbox g (pointBbox g st off size) off size).hmax d -
        (pointBbox g (pointBbox g st off size) off size).hmin d) →
      ∃ r, buildRegular g clf (size * g.dim + 1) (pointBbox g st off size) off size 0 = .ok r := by
    intro d hd hx
    have hb : (size - 1) * g.dim + cyc g.dim 0 d + 1 ≤ size * g.dim + 1 := by
      have h1 := cyc_lt hdim hd
      obtain ⟨n, rfl⟩ : ∃ n, size = n + 1 := ⟨size - 1, by omega⟩
      rw [Nat.add_sub_cancel, Nat.add_mul, Nat.one_mul]; omega
    obtain ⟨r, hr, _⟩ := regular_tot g clf _ (pointBbox g st off size) off size 0 d hsize hdim hd h hx hb
    exact ⟨r, hr⟩
  by_cases hc : size ≤ clf
  · exact key 0 hdim (.inl hc)
  · obtain ⟨d, hd, hx⟩ := not_tm_extent g clf (pointBbox g st off size) off hsize (by omega) h
    exact key d hd (.inr hx)

/-- C09: simultaneous subdivision terminates when at most `clf` points coincide
(over an Archimedean field, e.g. the rational or real numbers). -/
theorem C09_simsub_terminates [Archimedean K] (g : Geom K) (eig : (Nat → Nat → K) → Nat → K)
    (st : St K) (off size clf : Nat) (hsize : 0 < size)
    (h : ¬ TooManyCoincide g.x g.dim clf st.idx off size) :
    Terminates g eig st off size clf .simsub := by
  obtain ⟨f, r, hr, _⟩ := simsub_terminates g clf st off hsize h
  refine ⟨f, r, ?_⟩
  simp only [buildCluster, cassert_true (decide_eq_true hsize), ok_bind]
  exact hr

/-- C09: PCA clustering with positive weights terminates when at most `clf` points coincide, provided the
eigenvector routine returns a direction in which the points spread. -/
theorem C09_pca_terminates (g : Geom K) (hw : ∀ i, 0 < g.w i) (eig : (Nat → Nat → K) → Nat → K)
    (heig : Spreads g eig) (st : St K) (off size clf : Nat) (hsize : 0 < size)
    (h : ¬ TooManyCoincide g.x g.dim clf st.idx off size) :
    ∃ r, buildCluster g eig size st off size clf .pca = .ok r := by
  obtain ⟨r, hr, _⟩ := pca_tot g eig heig hw clf size st off size hsize h le_rfl
  exact ⟨r, hr⟩

/-! ### The hypotheses can be met -/

/-- four points on a line, two of them at the same place -/
def exGeom : Geom ℚ where
  dim := 1
  x := fun i _ => if i = 3 then 2 else i
  smin := fun i _ => (i : ℚ) - 1 / 2
  smax := fun i _ => (i : ℚ) + 1 / 2
  w := fun _ => 1

def exSt : St ℚ := ⟨fun i => 3 - i, fun _ => 0, fun _ => 0⟩

/-- Indices `3,2,1,0`, points `2,2,1,0`. -/
example : TooManyCoincide exGeom.x exGeom.dim 1 exSt.idx 0 4 := by
  refine ⟨{0, 1}, by decide, by decide, ?_⟩
  intro i hi k hk j _
  simp only [Finset.mem_insert, Finset.mem_singleton] at hi hk
  rcases hi with rfl | rfl <;> rcases hk with rfl | rfl <;> simp [exGeom, exSt]

theorem ex_not_tooMany : ¬ TooManyCoincide exGeom.x exGeom.dim 2 exSt.idx 0 4 := by
  rintro ⟨S, h1, h2, h3⟩
  have key : ∀ i ∈ S, ∀ k ∈ S, i ≠ k → i ≤ 1 := by
    intro i hi k hk hik
    have h := h3 i hi k hk 0 (by decide)
    have hi4 := h1 i hi
    have hk4 := h1 k hk
    by_contra hc
    have h2 : i = 2 ∨ i = 3 := by omega
    have h4 : k = 0 ∨ k = 1 ∨ k = 2 ∨ k = 3 := by omega
    rcases h2 with rfl | rfl <;> rcases h4 with rfl | rfl | rfl | rfl <;> simp [exGeom, exSt] at h hik
  have hsub : S ⊆ Finset.range 2 := by
    intro i hi
    have : (S.erase i).Nonempty := by
      rw [← Finset.card_pos, Finset.card_erase_of_mem hi]; omega
    obtain ⟨k, hk⟩ := this
    rw [Finset.mem_erase] at hk
    have := key i hi k hk.2 hk.1.symm
    rw [Finset.mem_range]; omega
  have := Finset.card_le_card hsub
  rw [Finset.card_range] at this
  omega

example : ∃ r, buildCluster exGeom (fun _ _ => 1) 5 exSt 0 4 2 .regular = .ok r :=
  C09_regular_terminates exGeom (by decide) _ exSt 0 4 2 (by decide) ex_not_tooMany

example : Terminates exGeom (fun _ _ => 1) exSt 0 4 2 .simsub :=
  C09_simsub_terminates exGeom _ exSt 0 4 2 (by decide) ex_not_tooMany

theorem ex_spreads : Spreads exGeom (fun _ _ => 1) := by
  rintro idx off size ⟨j, hj, k, hk, hne⟩
  have hj0 : j = 0 := by simp only [exGeom] at hj; omega
  have hk0 : k = 0 := by simp only [exGeom] at hk; omega
  subst hj0 hk0
  have h1 : covariance exGeom idx off size 0 0 = ∑ i ∈ Finset.range size,
      exGeom.w (idx (off + i)) * (exGeom.x (idx (off + i)) 0 - center exGeom idx off size 0) *
        (exGeom.x (idx (off + i)) 0 - center exGeom idx off size 0) := by
    simp only [covariance]; rw [forT_sum]; simp
  have h2 : 0 ≤ covariance exGeom idx off size 0 0 := by
    rw [h1]
    apply Finset.sum_nonneg
    intro i _
    simp only [exGeom, one_mul]
    exact mul_self_nonneg _
  simp only [exGeom, Finset.sum_range_one, one_mul, mul_one]
  exact lt_of_le_of_ne h2 (Ne.symm hne)

example : ∃ r, buildCluster exGeom (fun _ _ => 1) 4 exSt 0 4 2 .pca = .ok r :=
  C09_pca_terminates exGeom (fun _ => by simp [exGeom]) _ ex_spreads exSt 0 4 2 (by decide) ex_not_tooMany

/-- C05-C08 apply to a run that really splits: the root of the tree has sons. -/
example : ∃ st' t, buildCluster exGeom (fun _ _ => 1) 4 exSt 0 4 1 .adaptive = .ok (st', t) ∧ t.sons ≠ [] := by
  obtain ⟨st', t, h, _⟩ := C05_adaptive_terminates exGeom (by decide) (fun _ _ => 1) exSt 0 4 1 (by decide) 4 le_rfl
  refine ⟨st', t, h, fun hs => ?_⟩
  have hp := C06_partition _ _ _ _ _ _ _ _ _ _ h
  have ⟨σ, hσ, hi⟩ := C05_rearranges _ _ _ _ _ _ _ _ _ _ h
  rcases (C07_resolution _ _ _ _ _ _ _ _ _ h t (mem_nodes_self t)).1 hs with h1 | h1
  · rw [hp.2.1] at h1; omega
  · rw [hp.1, hp.2.1] at h1
    have hin : ∀ i, i < 4 → σ.symm i < 4 := by
      intro i h
      by_contra hc
      have := hσ (σ.symm i) (by omega)
      rw [Equiv.apply_symm_apply] at this
      omega
    have := h1 (σ.symm 2) (hin 2 (by omega)) (σ.symm 3) (hin 3 (by omega)) 0 (by decide)
    simp only [hi, Nat.zero_add, Equiv.apply_symm_apply] at this
    simp [exGeom, exSt] at this

end H2.Props
