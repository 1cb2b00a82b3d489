import Verif.Proof.FactorUse

/-! # Solving with and multiplying by the diagonal -/

set_option linter.unusedSectionVars false

namespace H2.Dense
open Spec
variable {K : Type} [Field K] [StarRing K]

theorem diagsolveVec_tot {a : Mat} {x : Vec} {m : Mem K} (ha : a.Valid m) (hx : x.Valid m) (hd : Disj a.Cell x.Cell)
    (hn : min a.rows a.cols ≤ x.dim) (trans : Bool) :
    Tot (diagsolveVec trans a x m) (VecBecomes x m fun i =>
      if i < min a.rows a.cols then x.val m i / cj trans (a.val m i i) else x.val m i) := by
  have inj : ∀ i < x.dim, ∀ j < x.dim, x.addr i = x.addr j → i = j := fun i _ j _ e => Vec.addr_inj e
  rw [show VecBecomes x m _ = AB x.addr x.dim m _ from funext fun _ => propext ab_vec.symm]
  refine forUp_tot (fun k m' => AB x.addr x.dim m (fun i => if i < k then x.val m i / cj trans (a.val m i i) else x.val m i) m')
    (Nat.zero_le _) (ab_congr (ab_self hx) fun i _ => by rw [if_neg (by omega)]) ?_
  intro k m' h1 h2 h3
  have hk := lt_min_iff.mp h2
  rw [ab_read h3 (by omega), ok_bind, ab_read_other h3 (ha.some hk.1 hk.2) (fun i hi e => hd _ (Mat.cell_addr hk.1 hk.2) ⟨i, hi, e⟩),
    ok_bind]
  refine (ab_write inj h3 (by omega) _).mono fun m2 h4 => ab_congr h4 fun i hi => ?_
  by_cases e : i = k
  · subst e; rw [if_pos rfl, if_pos (show i < i + 1 by omega), if_neg (show ¬ i < i by omega)]
  · rw [if_neg e]
    by_cases e' : i < k
    · rw [if_pos e', if_pos (by omega)]
    · rw [if_neg e', if_neg (by omega)]

theorem diagevalVec_tot {a : Mat} {x : Vec} {m : Mem K} (ha : a.Valid m) (hx : x.Valid m) (hd : Disj a.Cell x.Cell)
    (hn : a.cols ≤ x.dim) (trans : Bool) :
    Tot (diagevalVec trans a x m) (VecBecomes x m fun i =>
      if i < min a.rows a.cols then x.val m i * cj trans (a.val m i i) else x.val m i) := by
  have inj : ∀ i < x.dim, ∀ j < x.dim, x.addr i = x.addr j → i = j := fun i _ j _ e => Vec.addr_inj e
  refine Tot.cassert (by simpa using hn) ?_
  rw [show VecBecomes x m _ = AB x.addr x.dim m _ from funext fun _ => propext ab_vec.symm]
  refine forUp_tot (fun k m' => AB x.addr x.dim m (fun i => if i < k then x.val m i * cj trans (a.val m i i) else x.val m i) m')
    (Nat.zero_le _) (ab_congr (ab_self hx) fun i _ => by rw [if_neg (by omega)]) ?_
  intro k m' h1 h2 h3
  have hk := lt_min_iff.mp h2
  rw [ab_read_other h3 (ha.some hk.1 hk.2) (fun i hi e => hd _ (Mat.cell_addr hk.1 hk.2) ⟨i, hi, e⟩),
    ok_bind, ab_read h3 (by omega), ok_bind]
  refine (ab_write inj h3 (by omega) _).mono fun m2 h4 => ab_congr h4 fun i hi => ?_
  by_cases e : i = k
  · subst e; rw [if_pos rfl, if_pos (show i < i + 1 by omega), if_neg (show ¬ i < i by omega)]
  · rw [if_neg e]
    by_cases e' : i < k
    · rw [if_pos e', if_pos (by omega)]
    · rw [if_neg e', if_neg (by omega)]

theorem diagsolve_tot {a x : Mat} {m : Mem K} (ha : a.Valid m) (hx : x.Valid m) (hd : Disj a.Cell x.Cell) (trans xtrans : Bool)
    (hn : min a.rows a.cols ≤ opRows xtrans x) :
    Tot (diagsolve trans a xtrans x m) (MatBecomes x m fun i j => if (if xtrans then j else i) < min a.rows a.cols then
      x.val m i j / cj trans (a.val m (if xtrans then j else i) (if xtrans then j else i)) else x.val m i j) := by
  unfold diagsolve
  cases xtrans
  · simp only [Bool.false_eq_true, if_false]
    replace hn : min a.rows a.cols ≤ x.rows := hn
    refine forUp_tot (fun k m' => MatBecomes x m (fun i j => if i < k then x.val m i j / cj trans (a.val m i i) else x.val m i j) m')
      (Nat.zero_le _) (becomes_congr (becomes_self hx) fun i _ j _ => by rw [if_neg (by omega)]) ?_
    intro k m' h1 h2 h3
    have hk := lt_min_iff.mp h2
    rw [becomes_read_cell h3 (ha.some hk.1 hk.2) (hd _ (Mat.cell_addr hk.1 hk.2)), ok_bind]
    refine (lineLoop h3 (r := k) (lo := 0) (hi := x.cols) (new := fun j => x.val m k j / cj trans (a.val m k k)) (by omega)
      (Nat.zero_le _) le_rfl fun j _ hj m1 G h4 h5 => ?_).mono fun m2 h4 => becomes_congr h4 fun i _ j hj => ?_
    · rw [becomes_read h4 (by omega) hj, ok_bind, h5 k j (by omega), if_neg (by omega), mul_one_div]
    · by_cases e : i = k
      · subst e; rw [if_pos ⟨rfl, Nat.zero_le _, hj⟩, if_pos (by omega)]
      · rw [if_neg (fun h => e h.1)]
        by_cases e' : i < k
        · rw [if_pos e', if_pos (by omega)]
        · rw [if_neg e', if_neg (by omega)]
  · simp only [if_true]
    replace hn : min a.rows a.cols ≤ x.cols := hn
    refine forUp_tot (fun k m' => MatBecomes x m (fun i j => if j < k then x.val m i j / cj trans (a.val m j j) else x.val m i j) m')
      (Nat.zero_le _) (becomes_congr (becomes_self hx) fun i _ j _ => by rw [if_neg (by omega)]) ?_
    intro k m' h1 h2 h3
    have hk := lt_min_iff.mp h2
    rw [becomes_read_cell h3 (ha.some hk.1 hk.2) (hd _ (Mat.cell_addr hk.1 hk.2)), ok_bind]
    refine (colLineLoop h3 (r := k) (lo := 0) (hi := x.rows) (new := fun j => x.val m j k / cj trans (a.val m k k)) (by omega)
      (Nat.zero_le _) le_rfl fun j _ hj m1 G h4 h5 => ?_).mono fun m2 h4 => becomes_congr h4 fun j hj i _ => ?_
    · rw [becomes_read h4 hj (by omega), ok_bind, h5 j k (by omega), if_neg (by omega), mul_one_div]
    · by_cases e : i = k
      · subst e; rw [if_pos ⟨rfl, Nat.zero_le _, hj⟩, if_pos (by omega)]
      · rw [if_neg (fun h => e h.1)]
        by_cases e' : i < k
        · rw [if_pos e', if_pos (by omega)]
        · rw [if_neg e', if_neg (by omega)]

/-- solving with `L D L^*` -/
theorem ldl_system {n : Nat} {P Q M : Nat → Nat → K} {D b Y Z X : Nat → K} (hD : ∀ i < n, D i ≠ 0)
    (hM : ∀ r < n, ∀ c < n, M r c = ∑ l ∈ Finset.range n, P r l * D l * Q l c)
    (h1 : ∀ i < n, ∑ j ∈ Finset.range n, P i j * Y j = b i) (h2 : ∀ i < n, Z i = Y i / D i)
    (h3 : ∀ i < n, ∑ j ∈ Finset.range n, Q i j * X j = Z i) :
    ∀ i < n, ∑ j ∈ Finset.range n, M i j * X j = b i := by
  refine compose_systems (P := P) (Q := fun l c => D l * Q l c) (Y := Y) (fun r hr c hc => ?_) h1 fun i hi => ?_
  · rw [hM r hr c hc]
    exact Finset.sum_congr rfl fun l _ => mul_assoc _ _ _
  · simp only [mul_assoc]
    rw [← Finset.mul_sum, h3 i hi, h2 i hi, mul_div_cancel₀ _ (hD i hi)]

end H2.Dense
