import Verif.Proof.ClusterTerm
import Verif.Core.Sums
import Mathlib.Algebra.Order.BigOperators.Ring.Finset
import Mathlib.Algebra.BigOperators.Ring.Finset
import Mathlib.Algebra.Order.Archimedean.Basic
import Mathlib.Tactic.Ring

set_option linter.unusedSectionVars false

namespace H2.CB
open H2 Spec
variable {K : Type} [Field K] [LinearOrder K] [IsStrictOrderedRing K]

theorem father_tot (g : Geom K) (off size : Nat) (s : Cluster K) (ss : List (Cluster K)) :
    Tot (fatherCluster g off size (s :: ss)) (fun _ => True) := by
  obtain ⟨t, h⟩ := father_ok g off size s ss
  exact ⟨t, h, trivial⟩

theorem coord_resp (g : Geom K) {d : Nat} (hd : d < g.dim) (m : K) :
    ∀ i k, (∀ j < g.dim, g.x i j = g.x k j) → decide (g.x i d < m) = decide (g.x k d < m) := by
  intro i k h; rw [h d hd]

/-! ### regular clustering -/

theorem regular_dich (g : Geom K) (clf : Nat) : ∀ (f : Nat) (st : St K) (off size dir : Nat),
    0 < size → dir < g.dim →
    Dich (buildRegular g clf f st off size dir)
      (fun _ => ¬ TooManyCoincide g.x g.dim clf st.idx off size) := by
  intro f
  induction f with
  | zero => intro st off size dir _ _; left; rfl
  | succ f ih =>
    intro st off size dir hp hdir
    have hnew : (if dir + 1 < g.dim then dir + 1 else 0) < g.dim := by split <;> omega
    rw [buildRegular]
    refine Dich.cassert (decide_eq_true hp) ?_
    split
    · rw [if_neg (by omega)]
      split
      · rename_i ha
        obtain ⟨p0, p1⟩ := midpoint_split g st off hp _ ha
        rw [if_pos p0, if_pos p1]
        refine Dich.bind (ih _ _ _ _ p0 hnew) ?_
        rintro ⟨st1, s0⟩ e0 h0
        refine Dich.bind (ih _ _ _ _ p1 hnew) ?_
        rintro ⟨st2, s1⟩ e1 h1
        refine Dich.bind (father_tot g off size s0 [s1]).dich ?_
        intro t _ _
        refine Dich.pure ?_
        intro htm
        rcases tm_split (coord_resp g hdir (((pointBbox g st off size).hmax dir +
          (pointBbox g st off size).hmin dir) / 2)) htm with h | h
        · exact h0 h
        · apply h1
          refine tm_congr ?_ h
          intro i hi1 hi2
          exact ((regular_good _ _ _ _ _ _ _ _ _ e0).perm.outside
            (fun hcon => absurd (Nat.lt_of_lt_of_le hcon.2 hi1) (Nat.lt_irrefl _))).symm
      · rename_i ha
        have h0 : (pointBbox g st off size).hmax dir - (pointBbox g st off size).hmin dir = 0 := by
          apply le_antisymm (not_lt.1 ha)
          have := (bbox_spec g st off hp dir).2.2.2
          linarith
        refine Dich.cassert (decide_eq_true h0) ?_
        refine Dich.bind (ih _ _ _ _ hp hnew) ?_
        rintro ⟨st1, s0⟩ e0 h0
        refine Dich.bind (father_tot g off size s0 []).dich ?_
        intro t _ _
        exact Dich.pure h0
    · rename_i h
      refine Dich.pure ?_
      intro htm; exact h (tm_size htm)

/-- number of single-son steps from direction `dir` to direction `d` -/
def cyc (dim dir d : Nat) : Nat := if dir ≤ d then d - dir else d + dim - dir

theorem cyc_lt {dim e d : Nat} (he : e < dim) (hd : d < dim) : cyc dim e d + 1 ≤ dim := by
  unfold cyc; split <;> omega

theorem not_tm_extent (g : Geom K) (clf : Nat) (st : St K) (off : Nat) {size : Nat} (hp : 0 < size)
    (hclf : clf < size) (h : ¬ TooManyCoincide g.x g.dim clf st.idx off size) :
    ∃ d < g.dim, 0 < (pointBbox g st off size).hmax d - (pointBbox g st off size).hmin d := by
  by_contra hc
  push Not at hc
  apply h
  refine ⟨Finset.Ico off (off + size), fun i hi => Finset.mem_Ico.1 hi, by rw [Nat.card_Ico]; omega, ?_⟩
  intro i hi k hk j hj
  rw [Finset.mem_Ico] at hi hk
  obtain ⟨b1, -, -, b4⟩ := bbox_spec g st off hp j
  have h1 := b1 (i - off) (by omega)
  have h2 := b1 (k - off) (by omega)
  rw [show off + (i - off) = i by omega] at h1
  rw [show off + (k - off) = k by omega] at h2
  have h3 := hc j hj
  apply le_antisymm <;> linarith

theorem regular_tot (g : Geom K) (clf : Nat) : ∀ (f : Nat) (st : St K) (off size dir d : Nat),
    0 < size → dir < g.dim → d < g.dim →
    ¬ TooManyCoincide g.x g.dim clf st.idx off size →
    (size ≤ clf ∨ 0 < (pointBbox g st off size).hmax d - (pointBbox g st off size).hmin d) →
    (size - 1) * g.dim + cyc g.dim dir d + 1 ≤ f →
    Tot (buildRegular g clf f st off size dir) (fun _ => True) := by
  intro f
  induction f with
  | zero => intro st off size dir d _ _ _ _ _ h; omega
  | succ f ih =>
    intro st off size dir d hp hdir hd htm hext hf
    have hnew : (if dir + 1 < g.dim then dir + 1 else 0) < g.dim := by split <;> omega
    rw [buildRegular]
    refine Tot.cassert (decide_eq_true hp) ?_
    split
    · rename_i hclf
      rw [if_neg (by omega)]
      split
      · rename_i ha
        obtain ⟨p0, p1⟩ := midpoint_split g st off hp _ ha
        rw [if_pos p0, if_pos p1]
        have hsum := (splitLoop_ok (fun i => decide (g.x i dir < ((pointBbox g st off size).hmax dir +
          (pointBbox g st off size).hmin dir) / 2)) off size (pointBbox g st off size).idx).sum
        have hson : ∀ (st1 : St K) (o n : Nat), 0 < n → n < size →
            ¬ TooManyCoincide g.x g.dim clf st1.idx o n →
            Tot (buildRegular g clf f st1 o n (if dir + 1 < g.dim then dir + 1 else 0)) (fun _ => True) := by
          intro st1 o n hn1 hn2 hnt
          have hmul : (n - 1) * g.dim + g.dim ≤ (size - 1) * g.dim := by
            obtain ⟨q, hq⟩ : ∃ q, size - 1 = n - 1 + 1 + q := ⟨size - 1 - n, by omega⟩
            rw [hq, Nat.add_mul, Nat.add_mul, Nat.one_mul]; omega
          have hcyc : ∀ d', d' < g.dim → cyc g.dim (if dir + 1 < g.dim then dir + 1 else 0) d' + 1 ≤ g.dim := by
            intro d' hd'
            exact cyc_lt hnew hd'
          by_cases hn3 : n ≤ clf
          · exact ih st1 o n _ d hn1 hnew hd hnt (.inl hn3) (by have := hcyc d hd; omega)
          · obtain ⟨d', hd', he⟩ := not_tm_extent g clf st1 o hn1 (by omega) hnt
            exact ih st1 o n _ d' hn1 hnew hd' hnt (.inr he) (by have := hcyc d' hd'; omega)
        refine Tot.bind (hson _ _ _ p0 (by omega) ?_) ?_
        · intro h
          exact htm (tm_front _ h)
        rintro ⟨st1, s0⟩ e0 -
        refine Tot.bind (hson _ _ _ p1 (by omega) ?_) ?_
        · intro h
          refine htm (tm_back _ (tm_congr ?_ h))
          intro i hi1 hi2
          exact (regular_good _ _ _ _ _ _ _ _ _ e0).perm.outside
            (fun hcon => absurd (Nat.lt_of_lt_of_le hcon.2 hi1) (Nat.lt_irrefl _))
        rintro ⟨st2, s1⟩ e1 -
        refine Tot.bind (father_tot g off size s0 [s1]) ?_
        intro t _ _
        exact Tot.pure trivial
      · rename_i ha
        have h0 : (pointBbox g st off size).hmax dir - (pointBbox g st off size).hmin dir = 0 := by
          apply le_antisymm (not_lt.1 ha)
          have := (bbox_spec g st off hp dir).2.2.2
          linarith
        refine Tot.cassert (decide_eq_true h0) ?_
        rcases hext with h | hext
        · omega
        have hne : dir ≠ d := by rintro rfl; exact ha hext
        refine Tot.bind (ih (pointBbox g st off size) off size _ d hp hnew hd htm (.inr hext) ?_) ?_
        · have : cyc g.dim (if dir + 1 < g.dim then dir + 1 else 0) d + 1 = cyc g.dim dir d := by
            unfold cyc
            by_cases h1 : dir + 1 < g.dim
            · rw [if_pos h1]
              split <;> split <;> omega
            · rw [if_neg h1]
              split <;> split <;> omega
          omega
        rintro ⟨st1, s0⟩ e0 -
        refine Tot.bind (father_tot g off size s0 []) ?_
        intro t _ _
        exact Tot.pure trivial
    · exact Tot.pure trivial

/-! ### PCA clustering -/

theorem pca_resp (g : Geom K) (c v : Nat → K) :
    ∀ i k, (∀ j < g.dim, g.x i j = g.x k j) →
      decide (0 ≤ forT 0 g.dim (fun j w => w + (g.x i j - c j) * v j) 0) =
      decide (0 ≤ forT 0 g.dim (fun j w => w + (g.x k j - c j) * v j) 0) := by
  intro i k h
  rw [forT_sum, forT_sum]
  congr 2
  congr 1
  apply Finset.sum_congr rfl
  intro j hj
  rw [h j (Finset.mem_range.1 hj)]

theorem pca_dich (g : Geom K) (eig : (Nat → Nat → K) → Nat → K) (clf : Nat) :
    ∀ (f : Nat) (st : St K) (off size : Nat), 0 < size →
    Dich (buildPca g eig clf f st off size)
      (fun _ => ¬ TooManyCoincide g.x g.dim clf st.idx off size) := by
  intro f
  induction f with
  | zero => intro st off size _; left; rfl
  | succ f ih =>
    intro st off size hp
    rw [buildPca]
    refine Dich.cassert (decide_eq_true hp) ?_
    split
    · dsimp only
      have sp := splitLoop_ok (fun i => decide (0 ≤ forT 0 g.dim (fun j w => w + (g.x i j -
            center g st.idx off size j) * eig (covariance g st.idx off size) j) 0)) off size st.idx
      have spt := tm_split (clf := clf) (off := off) (size := size) (a := st.idx)
        (pca_resp g (center g st.idx off size) (eig (covariance g st.idx off size)))
      refine Dich.cassert (decide_eq_true sp.sum) ?_
      split
      · rename_i p0
        split
        · rename_i p1
          refine Dich.bind (ih _ _ _ p0) ?_
          rintro ⟨st1, s0⟩ e0 h0
          refine Dich.bind (ih _ _ _ p1) ?_
          rintro ⟨st2, s1⟩ e1 h1
          refine Dich.bind (father_tot g off size s0 [s1]).dich ?_
          intro t _ _
          refine Dich.pure ?_
          intro htm
          rcases spt htm with h | h
          · exact h0 h
          · apply h1
            refine tm_congr ?_ h
            intro i hi1 hi2
            exact ((pca_good _ _ _ _ _ _ _ _ _ e0).perm.outside (by omega)).symm
        · rename_i p1
          refine Dich.bind (ih _ _ _ p0) ?_
          rintro ⟨st1, s0⟩ e0 h0
          refine Dich.bind (father_tot g off size s0 []).dich ?_
          intro t _ _
          refine Dich.pure ?_
          intro htm
          rcases spt htm with h | h
          · exact h0 h
          · have := tm_size h; omega
      · rename_i p0
        have p1 : 0 < (splitLoop (fun i => decide (0 ≤ forT 0 g.dim (fun j w => w + (g.x i j -
            center g st.idx off size j) * eig (covariance g st.idx off size) j) 0)) off size st.idx).2.2 := by
          have := sp.sum; omega
        refine Dich.cassert (decide_eq_true p1) ?_
        refine Dich.bind (ih _ _ _ p1) ?_
        rintro ⟨st1, s0⟩ e0 h0
        refine Dich.bind (father_tot g off size s0 []).dich ?_
        intro t _ _
        refine Dich.pure ?_
        intro htm
        rcases spt htm with h | h
        · have := tm_size h; omega
        · apply h0
          rw [Nat.eq_zero_of_not_pos p0, Nat.add_zero] at h
          exact h
    · rename_i h
      refine Dich.pure ?_
      intro htm; exact h (tm_size htm)

/-- the eigenvector oracle picks a direction in which the points of the segment spread, whenever their
covariance matrix is not zero (as the eigenvector of the largest eigenvalue does) -/
def Spreads (g : Geom K) (eig : (Nat → Nat → K) → Nat → K) : Prop :=
  ∀ (idx : Nat → Nat) (off size : Nat),
    (∃ j < g.dim, ∃ k < g.dim, covariance g idx off size j k ≠ 0) →
    0 < ∑ j ∈ Finset.range g.dim, ∑ k ∈ Finset.range g.dim,
      eig (covariance g idx off size) j * covariance g idx off size j k * eig (covariance g idx off size) k

theorem pca_split (g : Geom K) (eig : (Nat → Nat → K) → Nat → K) (hs : Spreads g eig)
    (hw : ∀ i, 0 < g.w i) (clf : Nat) (st : St K) (off : Nat) {size : Nat} (hp : 0 < size)
    (hclf : clf < size) (h : ¬ TooManyCoincide g.x g.dim clf st.idx off size) :
    let sp := splitLoop (fun i => decide (0 ≤ forT 0 g.dim (fun j w => w + (g.x i j -
            center g st.idx off size j) * eig (covariance g st.idx off size) j) 0)) off size st.idx
    0 < sp.2.1 ∧ 0 < sp.2.2 := by
  intro sp
  set c := center g st.idx off size with hc
  set C := covariance g st.idx off size with hC
  set v := eig C with hv
  -- abbreviations
  let W : Nat → K := fun i => g.w (st.idx (off + i))
  let X : Nat → Nat → K := fun i j => g.x (st.idx (off + i)) j
  have hWpos : 0 < ∑ i ∈ Finset.range size, W i :=
    Finset.sum_pos (fun i _ => hw _) ⟨0, Finset.mem_range.2 hp⟩
  have hcj : ∀ j, (∑ i ∈ Finset.range size, W i) * c j = ∑ i ∈ Finset.range size, W i * X i j := by
    intro j
    rw [hc]
    unfold center
    simp only [forT_sum, zero_add]
    change (∑ i ∈ Finset.range size, W i) * ((∑ i ∈ Finset.range size, W i * X i j) *
      (1 / ∑ i ∈ Finset.range size, W i)) = _
    field_simp
  have hCjk : ∀ j k, C j k = ∑ i ∈ Finset.range size, W i * (X i j - c j) * (X i k - c k) := by
    intro j k
    rw [hC]; unfold covariance
    simp only [forT_sum, zero_add]
    rfl
  -- the covariance is not zero
  obtain ⟨d, hd, hext⟩ := not_tm_extent g clf st off hp hclf h
  have hne : C d d ≠ 0 := by
    obtain ⟨-, ⟨i1, hi1, e1⟩, ⟨i2, hi2, e2⟩, -⟩ := bbox_spec g st off hp d
    have hx : X i1 d ≠ X i2 d := by
      change g.x (st.idx (off + i1)) d ≠ g.x (st.idx (off + i2)) d
      rw [e1, e2]; intro h'; rw [h'] at hext; simp at hext
    have : ∃ i ∈ Finset.range size, X i d - c d ≠ 0 := by
      by_contra hc'
      push Not at hc'
      have a1 := hc' i1 (Finset.mem_range.2 hi1)
      have a2 := hc' i2 (Finset.mem_range.2 hi2)
      exact hx (by linarith)
    obtain ⟨i, hi, hne⟩ := this
    rw [hCjk]
    apply ne_of_gt
    refine Finset.sum_pos' (fun i _ => ?_) ⟨i, hi, ?_⟩
    · have := hw (st.idx (off + i))
      rw [mul_assoc]; exact mul_nonneg this.le (mul_self_nonneg _)
    · have := hw (st.idx (off + i))
      rw [mul_assoc]; exact mul_pos this (mul_self_pos.2 hne)
  have hq := hs st.idx off size ⟨d, hd, d, hd, hne⟩
  -- projections
  let z : Nat → K := fun i => ∑ j ∈ Finset.range g.dim, (X i j - c j) * v j
  have hz0 : ∑ i ∈ Finset.range size, W i * z i = 0 := by
    have : ∀ i, W i * z i = ∑ j ∈ Finset.range g.dim, (W i * X i j - W i * c j) * v j := by
      intro i
      simp only [z, Finset.mul_sum]
      apply Finset.sum_congr rfl
      intro j _; ring
    simp only [this]
    rw [Finset.sum_comm]
    apply Finset.sum_eq_zero
    intro j _
    rw [← Finset.sum_mul, Finset.sum_sub_distrib, ← Finset.sum_mul, hcj, sub_self, zero_mul]
  have hzz : ∑ i ∈ Finset.range size, W i * (z i * z i) = ∑ j ∈ Finset.range g.dim,
      ∑ k ∈ Finset.range g.dim, v j * C j k * v k := by
    have e1 : ∀ j k, v j * C j k * v k = ∑ i ∈ Finset.range size,
        W i * (((X i j - c j) * v j) * ((X i k - c k) * v k)) := by
      intro j k
      rw [hCjk, Finset.mul_sum, Finset.sum_mul]
      apply Finset.sum_congr rfl
      intro i _; ring
    simp only [e1]
    have e2 : ∀ i, W i * (z i * z i) = ∑ j ∈ Finset.range g.dim, ∑ k ∈ Finset.range g.dim,
        W i * (((X i j - c j) * v j) * ((X i k - c k) * v k)) := by
      intro i
      simp only [z]
      rw [Finset.sum_mul_sum, Finset.mul_sum]
      apply Finset.sum_congr rfl
      intro j _
      rw [Finset.mul_sum]
    simp only [e2]
    rw [Finset.sum_comm]
    apply Finset.sum_congr rfl
    intro j _
    rw [Finset.sum_comm]
  have hpred : ∀ i, forT 0 g.dim (fun j w => w + (g.x (st.idx (off + i)) j - c j) * v j) 0 = z i := by
    intro i; rw [forT_sum, zero_add]
  refine split_pos ?_ ?_
  · by_contra hall
    push Not at hall
    have hneg : ∀ i ∈ Finset.range size, W i * z i < 0 := by
      intro i hi
      have := hall i (Finset.mem_range.1 hi)
      simp only [ne_eq, decide_eq_true_eq, not_le] at this
      exact mul_neg_of_pos_of_neg (hw _) ((hpred i) ▸ this)
    have := Finset.sum_neg hneg ⟨0, Finset.mem_range.2 hp⟩
    rw [hz0] at this; exact lt_irrefl _ this
  · by_contra hall
    push Not at hall
    have hnn : ∀ i ∈ Finset.range size, 0 ≤ W i * z i := by
      intro i hi
      have := hall i (Finset.mem_range.1 hi)
      simp only [ne_eq, decide_eq_false_iff_not, not_not] at this
      exact mul_nonneg (hw _).le ((hpred i) ▸ this)
    have hz : ∀ i ∈ Finset.range size, z i = 0 := by
      intro i hi
      have := (Finset.sum_eq_zero_iff_of_nonneg hnn).1 hz0 i hi
      rcases mul_eq_zero.1 this with h' | h'
      · exact absurd h' (hw _).ne'
      · exact h'
    rw [← hzz] at hq
    rw [Finset.sum_eq_zero (fun i hi => by rw [hz i hi]; ring)] at hq
    exact lt_irrefl _ hq

theorem pca_tot (g : Geom K) (eig : (Nat → Nat → K) → Nat → K) (hs : Spreads g eig)
    (hw : ∀ i, 0 < g.w i) (clf : Nat) : ∀ (f : Nat) (st : St K) (off size : Nat), 0 < size →
    ¬ TooManyCoincide g.x g.dim clf st.idx off size → size ≤ f →
    Tot (buildPca g eig clf f st off size) (fun _ => True) := by
  intro f
  induction f with
  | zero => intro st off size h _ h2; omega
  | succ f ih =>
    intro st off size hp htm hf
    rw [buildPca]
    refine Tot.cassert (decide_eq_true hp) ?_
    split
    · rename_i hclf
      dsimp only
      have sp := splitLoop_ok (fun i => decide (0 ≤ forT 0 g.dim (fun j w => w + (g.x i j -
            center g st.idx off size j) * eig (covariance g st.idx off size) j) 0)) off size st.idx
      obtain ⟨p0, p1⟩ := pca_split g eig hs hw clf st off hp hclf htm
      have hsum := sp.sum
      refine Tot.cassert (decide_eq_true sp.sum) ?_
      rw [if_pos p0, if_pos p1]
      refine Tot.bind (ih _ _ _ p0 ?_ (by omega)) ?_
      · intro h; exact htm (tm_front _ h)
      rintro ⟨st1, s0⟩ e0 -
      refine Tot.bind (ih _ _ _ p1 ?_ (by omega)) ?_
      · intro h
        refine htm (tm_back _ (tm_congr ?_ h))
        intro i hi1 hi2
        exact (pca_good _ _ _ _ _ _ _ _ _ e0).perm.outside (by omega)
      rintro ⟨st2, s1⟩ e1 -
      refine Tot.bind (father_tot g off size s0 [s1]) ?_
      intro t _ _
      exact Tot.pure trivial
    · exact Tot.pure trivial

end H2.CB
