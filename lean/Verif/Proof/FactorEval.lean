import Verif.Proof.Factor

/-! # Triangular products -/

set_option linter.unusedSectionVars false

namespace H2.Dense
open Spec
variable {K : Type} [Field K] [StarRing K]

section
variable {c : K → K} {ad : Nat → Nat → Nat} {unit : Bool} {xa : Nat → Nat} {d : Nat} {m m' : Mem K} {X : Nat → K}
  {A : Nat → Nat → K} {D : Nat → K}

theorem accum_ok (h : AB xa d m X m') {i lo hi : Nat} (hle : lo ≤ hi) (hhi : hi ≤ d)
    (hA : ∀ j, lo ≤ j → j < hi → m (ad i j) = some (A i j) ∧ ∀ k < d, ad i j ≠ xa k) (v : K) :
    accum c ad xa i lo hi m' v = .ok (v + ∑ j ∈ Finset.Ico lo hi, c (A i j) * X j) := by
  unfold accum
  refine sumLoop (t := fun j => c (A i j) * X j) hle (fun k h1 h2 s => ?_) v
  obtain ⟨e1, e2⟩ := hA k h1 h2
  rw [ab_read_other h e1 e2, ok_bind, ab_read h (show k < d by omega), ok_bind]
  rfl

theorem evalRow_tot (hDu : ∀ i, D i = if unit then 1 else c (A i i)) (inj : ∀ i < d, ∀ j < d, xa i = xa j → i = j) (h : AB xa d m X m') {i lo hi : Nat} (hi' : i < d)
    (hle : lo ≤ hi) (hhi : hi ≤ d)
    (hA : ∀ j, (j = i ∨ lo ≤ j ∧ j < hi) → m (ad i j) = some (A i j) ∧ ∀ k < d, ad i j ≠ xa k) :
    Tot (evalRow c ad unit xa i lo hi m') (AB xa d m fun k => if k = i then
      D i * X i + ∑ j ∈ Finset.Ico lo hi, c (A i j) * X j else X k) := by
  unfold evalRow
  rw [hDu i]
  refine Tot.bind (P := fun (v : K) => v = (if unit then 1 else c (A i i)) * X i) ?_ ?_
  · cases unit
    · simp only [Bool.false_eq_true, if_false]
      obtain ⟨e1, e2⟩ := hA i (.inl rfl)
      rw [ab_read_other h e1 e2, ok_bind, ab_read h hi', ok_bind]
      exact Tot.pure rfl
    · simp only [if_true]
      rw [ab_read h hi', one_mul]
      exact ⟨_, rfl, rfl⟩
  · rintro v - rfl
    rw [accum_ok h hle hhi (fun j h1 h2 => hA j (.inr ⟨h1, h2⟩)), ok_bind]
    exact ab_write inj h hi' _

theorem evalUpper_tot (hDu : ∀ i, D i = if unit then 1 else c (A i i)) (inj : ∀ i < d, ∀ j < d, xa i = xa j → i = j) (h : AB xa d m X m') {p q : Nat} (hp : p ≤ d) (hq : q ≤ d)
    (hA : ∀ i < p, ∀ j < q, m (ad i j) = some (A i j) ∧ ∀ k < d, ad i j ≠ xa k) :
    Tot (evalUpper c ad unit xa (min p q) p q m') (AB xa d m fun i => if i < min p q then
      D i * X i + ∑ j ∈ Finset.Ico (i + 1) q, c (A i j) * X j else if i < p then 0 else X i) := by
  unfold evalUpper
  generalize hn : min p q = n
  refine Tot.bind (P := AB xa d m fun i => if i < n then
      D i * X i + ∑ j ∈ Finset.Ico (i + 1) n, c (A i j) * X j else X i) ?_ ?_
  · refine forUp_tot (fun k m1 => AB xa d m (fun i => if i < k then
      D i * X i + ∑ j ∈ Finset.Ico (i + 1) n, c (A i j) * X j else X i) m1) (Nat.zero_le _)
      (ab_congr h fun i _ => by rw [if_neg (by omega)]) ?_
    intro k m1 _ hk h1
    refine (evalRow_tot hDu inj h1 (show k < d by omega) (show k + 1 ≤ n by omega) (show n ≤ d by omega)
      (fun j hj => hA k (by omega) j (by omega))).mono fun m2 h2 => ab_congr h2 fun i _ => ?_
    by_cases e : i = k
    · subst e
      rw [if_pos rfl, if_neg (show ¬ i < i by omega), if_pos (show i < i + 1 by omega)]
      congr 1
      exact Finset.sum_congr rfl fun j hj => by have := Finset.mem_Ico.mp hj; rw [if_neg (by omega)]
    · rw [if_neg e]
      by_cases e' : i < k
      · rw [if_pos e', if_pos (show i < k + 1 by omega)]
      · rw [if_neg e', if_neg (show ¬ i < k + 1 by omega)]
  · intro m1 _ h1
    refine Tot.bind (P := AB xa d m fun i => if i < n then
      D i * X i + ∑ j ∈ Finset.Ico (i + 1) q, c (A i j) * X j else X i) ?_ ?_
    · by_cases hnq : n < q
      · rw [if_pos hnq]
        refine (forUp_tot (fun k m1 => AB xa d m (fun i => if i < n then
          D i * X i + ∑ j ∈ Finset.Ico (i + 1) (if i < k then q else n), c (A i j) * X j else X i) m1)
          (Nat.zero_le _)
          (ab_congr h1 fun i _ => by simp) ?_).mono fun m2 h2 => ab_congr h2 fun i _ => ?_
        · intro k m2 _ hk h2
          rw [ab_read h2 (show k < d by omega), ok_bind, accum_ok h2 (show n ≤ q by omega) hq
            (fun j _ h4 => hA k (by omega) j h4), ok_bind]
          refine (ab_write inj h2 (show k < d by omega) _).mono fun m3 h3 => ab_congr h3 fun i _ => ?_
          by_cases e : i = k
          · subst e
            rw [if_pos rfl, if_pos hk, if_pos hk, if_neg (show ¬ i < i by omega), if_pos (show i < i + 1 by omega), add_assoc]
            congr 1
            rw [← Finset.sum_Ico_consecutive _ (show i + 1 ≤ n by omega) (show n ≤ q by omega)]
            congr 1
            exact Finset.sum_congr rfl fun j hj => by have := Finset.mem_Ico.mp hj; rw [if_neg (by omega)]
          · rw [if_neg e]
            by_cases e' : i < k
            · rw [if_pos e', if_pos (show i < k + 1 by omega)]
            · rw [if_neg e', if_neg (show ¬ i < k + 1 by omega)]
        · by_cases e : i < n
          · simp only [if_pos e]
          · simp only [if_neg e]
      · rw [if_neg hnq]
        have : n = q := by omega
        subst this
        exact Tot.pure h1
    · intro m2 _ h2
      by_cases hnp : n < p
      · rw [if_pos hnp]
        refine (forUp_tot (fun k m1 => AB xa d m (fun i => if i < n then
          D i * X i + ∑ j ∈ Finset.Ico (i + 1) q, c (A i j) * X j else
          if i < k then 0 else X i) m1) (show n ≤ p by omega)
          (ab_congr h2 fun i _ => ?_) ?_)
        · by_cases e : i < n
          · rw [if_pos e, if_pos e]
          · rw [if_neg e, if_neg e, if_neg e]
        · intro k m3 h3 hk h4
          refine (ab_write inj h4 (show k < d by omega) _).mono fun m4 h5 => ab_congr h5 fun i _ => ?_
          by_cases e : i = k
          · subst e
            rw [if_pos rfl, if_neg (by omega), if_pos (by omega)]
          · rw [if_neg e]
            by_cases e1 : i < n
            · rw [if_pos e1, if_pos e1]
            · rw [if_neg e1, if_neg e1]
              by_cases e' : i < k
              · rw [if_pos e', if_pos (show i < k + 1 by omega)]
              · rw [if_neg e', if_neg (show ¬ i < k + 1 by omega)]
      · rw [if_neg hnp]
        have : n = p := by omega
        refine Tot.pure (ab_congr h2 fun i _ => ?_)
        by_cases e : i < n
        · rw [if_pos e, if_pos e]
        · rw [if_neg e, if_neg e, if_neg (by omega)]

theorem evalLower_tot (hDu : ∀ i, D i = if unit then 1 else c (A i i)) (inj : ∀ i < d, ∀ j < d, xa i = xa j → i = j) (h : AB xa d m X m') {p q n q' : Nat} (hp : p ≤ d) (hq : q ≤ d)
    (hn : n = min p q) (hq' : n < p → q' = q)
    (hA : ∀ i < p, ∀ j < q, m (ad i j) = some (A i j) ∧ ∀ k < d, ad i j ≠ xa k) :
    Tot (evalLower c ad unit xa n p q' m') (AB xa d m fun i => if i < n then
      D i * X i + ∑ j ∈ Finset.Ico 0 i, c (A i j) * X j else
      if i < p then ∑ j ∈ Finset.Ico 0 q, c (A i j) * X j else X i) := by
  unfold evalLower
  refine Tot.bind (P := AB xa d m fun i => if n ≤ i ∧ i < p then ∑ j ∈ Finset.Ico 0 q, c (A i j) * X j else X i) ?_ ?_
  · by_cases hnp : n < p
    · rw [if_pos hnp, hq' hnp]
      refine forUp_tot (fun k m1 => AB xa d m (fun i => if n ≤ i ∧ i < k then ∑ j ∈ Finset.Ico 0 q, c (A i j) * X j else X i) m1)
        (show n ≤ p by omega) (ab_congr h fun i _ => by rw [if_neg (by omega)]) ?_
      intro k m1 h1 hk h2
      rw [accum_ok h2 (Nat.zero_le _) hq (fun j _ h4 => hA k (by omega) j h4), ok_bind]
      refine (ab_write inj h2 (show k < d by omega) _).mono fun m3 h3 => ab_congr h3 fun i _ => ?_
      by_cases e : i = k
      · rw [if_pos e, e, if_pos (show n ≤ k ∧ k < k + 1 by omega), zero_add]
        exact Finset.sum_congr rfl fun j hj => by have := Finset.mem_Ico.mp hj; rw [if_neg (by omega)]
      · rw [if_neg e]
        by_cases e' : n ≤ i ∧ i < k
        · rw [if_pos e', if_pos (show n ≤ i ∧ i < k + 1 by omega)]
        · rw [if_neg e', if_neg (show ¬ (n ≤ i ∧ i < k + 1) by omega)]
    · rw [if_neg hnp]
      exact Tot.pure (ab_congr h fun i _ => by rw [if_neg (by omega)])
  · intro m1 _ h1
    refine (forDown_tot (fun k m1 => AB xa d m (fun i => if n ≤ i ∧ i < p then ∑ j ∈ Finset.Ico 0 q, c (A i j) * X j else
      if k ≤ i ∧ i < n then D i * X i + ∑ j ∈ Finset.Ico 0 i, c (A i j) * X j else X i) m1)
      (ab_congr h1 fun i _ => ?_) ?_).mono fun m2 h2 => ab_congr h2 fun i _ => ?_
    · by_cases e : n ≤ i ∧ i < p
      · rw [if_pos e, if_pos e]
      · rw [if_neg e, if_neg e, if_neg (by omega)]
    · intro k m2 hk h2
      refine (evalRow_tot hDu inj h2 (show k < d by omega) (Nat.zero_le _) (show k ≤ d by omega)
        (fun j hj => hA k (by omega) j (by omega))).mono fun m3 h3 => ab_congr h3 fun i _ => ?_
      by_cases e : i = k
      · subst e
        rw [if_pos rfl, if_neg (show ¬ (n ≤ i ∧ i < p) by omega), if_neg (show ¬ (n ≤ i ∧ i < p) by omega),
          if_neg (show ¬ (i + 1 ≤ i ∧ i < n) by omega), if_pos (show i ≤ i ∧ i < n by omega)]
        congr 1
        exact Finset.sum_congr rfl fun j hj => by
          have := Finset.mem_Ico.mp hj
          rw [if_neg (by omega), if_neg (by omega)]
      · rw [if_neg e]
        by_cases e1 : n ≤ i ∧ i < p
        · rw [if_pos e1, if_pos e1]
        · rw [if_neg e1, if_neg e1]
          by_cases e' : k + 1 ≤ i ∧ i < n
          · rw [if_pos e', if_pos (show k ≤ i ∧ i < n by omega)]
          · rw [if_neg e', if_neg (show ¬ (k ≤ i ∧ i < n) by omega)]
    · by_cases e : i < n
      · rw [if_neg (by omega), if_pos (by omega), if_pos e]
      · rw [if_neg e]
        by_cases e' : i < p
        · rw [if_pos (by omega), if_pos e']
        · rw [if_neg (by omega), if_neg (by omega), if_neg e']
end

/-! ### sums over rows of a trapezoidal matrix -/

theorem upper_sum {C : Nat → Nat → K} {D X : Nat → K} {T : Nat → Nat → K} {p q i : Nat}
    (hT : ∀ i j, T i j = if i = j then D i else if i < j then C i j else 0) (hi : i < p) :
    ∑ j ∈ Finset.range q, T i j * X j = if i < min p q then D i * X i + ∑ j ∈ Finset.Ico (i + 1) q, C i j * X j else 0 := by
  by_cases e : i < q
  · rw [if_pos (by omega), ← Finset.sum_range_add_sum_Ico _ (show i + 1 ≤ q by omega), Finset.sum_range_succ, hT i i, if_pos rfl,
      Finset.sum_eq_zero (s := Finset.range i), zero_add]
    · congr 1
      refine Finset.sum_congr rfl fun j hj => ?_
      have := Finset.mem_Ico.mp hj
      rw [hT, if_neg (by omega), if_pos (by omega)]
    · intro j hj
      have := Finset.mem_range.mp hj
      rw [hT, if_neg (by omega), if_neg (by omega), zero_mul]
  · rw [if_neg (by omega)]
    refine Finset.sum_eq_zero fun j hj => ?_
    have := Finset.mem_range.mp hj
    rw [hT, if_neg (by omega), if_neg (by omega), zero_mul]

theorem lower_sum {C : Nat → Nat → K} {D X : Nat → K} {T : Nat → Nat → K} {p q i : Nat}
    (hT : ∀ i j, T i j = if i = j then D i else if j < i then C i j else 0) (hi : i < p) :
    ∑ j ∈ Finset.range q, T i j * X j = if i < min p q then D i * X i + ∑ j ∈ Finset.Ico 0 i, C i j * X j else
      ∑ j ∈ Finset.Ico 0 q, C i j * X j := by
  by_cases e : i < q
  · rw [if_pos (by omega), ← Finset.sum_range_add_sum_Ico _ (show i + 1 ≤ q by omega), Finset.sum_range_succ, hT i i, if_pos rfl,
      Finset.sum_eq_zero (s := Finset.Ico (i + 1) q), add_zero, add_comm, Finset.range_eq_Ico (a := i)]
    · congr 1
      refine Finset.sum_congr rfl fun j hj => ?_
      have := Finset.mem_Ico.mp hj
      rw [hT, if_neg (by omega), if_pos (by omega)]
    · intro j hj
      have := Finset.mem_Ico.mp hj
      rw [hT, if_neg (by omega), if_neg (by omega), zero_mul]
  · rw [if_neg (by omega), Finset.range_eq_Ico (a := q)]
    refine Finset.sum_congr rfl fun j hj => ?_
    have := Finset.mem_Ico.mp hj
    rw [hT, if_neg (by omega), if_pos (by omega)]

/-! ### the operations -/

theorem trievalVec_tot {a : Mat} {x : Vec} {m : Mem K} (ha : a.Valid m) (hx : x.Valid m) (hd : Disj a.Cell x.Cell)
    (hr : a.rows ≤ x.dim) (hc : a.cols ≤ x.dim) (lower unit trans : Bool) :
    Tot (trievalVec lower unit trans a x m) (VecBecomes x m fun i => if i < opRows trans a then
      ∑ j ∈ Finset.range (opCols trans a), op trans (tri lower unit (a.val m)) i j * x.val m j else x.val m i) := by
  have inj : ∀ i < x.dim, ∀ j < x.dim, x.addr i = x.addr j → i = j := fun i _ j _ e => Vec.addr_inj e
  have h1 : ∀ i < a.rows, ∀ j < a.cols, m (a.addr i j) = some (a.val m i j) ∧ ∀ k < x.dim, a.addr i j ≠ x.addr k :=
    fun i hi j hj => ⟨ha.some hi hj, fun k hk e => hd _ (Mat.cell_addr hi hj) ⟨k, hk, e⟩⟩
  have hs := ab_self hx
  unfold trievalVec lowerevalVec upperevalVec opRows opCols
  cases lower <;> cases trans <;> simp only [Bool.false_eq_true, if_false, if_true] <;>
    refine Tot.cassert (by simpa using hr) (Tot.cassert (by simpa using hc) ?_)
  · refine (evalUpper_tot (fun _ => rfl) (A := a.val m) inj hs hr hc h1).mono fun m' h => ab_vec.mp (ab_congr h fun i _ => ?_)
    by_cases e : i < a.rows
    · rw [if_pos e, upper_sum (p := a.rows) (C := a.val m) (D := fun i => if unit then 1 else a.val m i i) (fun i j => by rw [op_tri]; simp [op]) e]
      simp only [id]
      rw [if_pos e]
    · rw [if_neg e, if_neg (by omega), if_neg e]
  · rw [min_comm]
    refine (evalLower_tot (fun _ => rfl) (A := fun i j => a.val m j i) inj hs hc hr rfl (q' := min a.cols a.rows) (by omega)
      (fun i hi j hj => h1 j hj i hi)).mono fun m' h => ab_vec.mp (ab_congr h fun i _ => ?_)
    by_cases e : i < a.cols
    · rw [if_pos e, lower_sum (p := a.cols) (C := fun i j => star (a.val m j i)) (D := fun i => if unit then 1 else star (a.val m i i))
        (fun i j => by rw [op_tri]; simp [op]) e, if_pos e]
    · rw [if_neg e, if_neg (by omega), if_neg e]
  · refine (evalLower_tot (fun _ => rfl) (A := a.val m) inj hs hr hc rfl (fun _ => rfl) h1).mono fun m' h => ab_vec.mp (ab_congr h fun i _ => ?_)
    by_cases e : i < a.rows
    · rw [if_pos e, lower_sum (p := a.rows) (C := a.val m) (D := fun i => if unit then 1 else a.val m i i) (fun i j => by rw [op_tri]; simp [op]) e]
      simp only [id]
      rw [if_pos e]
    · rw [if_neg e, if_neg (by omega), if_neg e]
  · rw [min_comm]
    refine (evalUpper_tot (fun _ => rfl) (A := fun i j => a.val m j i) inj hs hc hr
      (fun i hi j hj => h1 j hj i hi)).mono fun m' h => ab_vec.mp (ab_congr h fun i _ => ?_)
    by_cases e : i < a.cols
    · rw [if_pos e, upper_sum (p := a.cols) (C := fun i j => star (a.val m j i)) (D := fun i => if unit then 1 else star (a.val m i i))
        (fun i j => by rw [op_tri]; simp [op]) e, if_pos e]
    · rw [if_neg e, if_neg (by omega), if_neg e]

/-! ### columns and rows of a matrix -/

theorem ab_column {x : Mat} {m m1 m2 : Mem K} {F : Nat → Nat → K} {G : Nat → K} {k : Nat} (hk : k < x.cols)
    (h : MatBecomes x m F m1) (h2 : AB (fun i => x.addr i k) x.rows m1 G m2) :
    MatBecomes x m (fun i q => if q = k then G i else F i q) m2 := by
  have hval : ∀ i < x.rows, ∀ q < x.cols, m2 (x.addr i q) = some (if q = k then G i else F i q) := by
    intro i hi q hq
    by_cases e : q = k
    · subst e; rw [if_pos rfl]; exact h2.1 i hi
    · rw [if_neg e, h2.2 _ (fun ⟨i', hi', e'⟩ => e (Mat.addr_inj h.1.1 hi hi' e').2), h.1.some hi hq, h.2.1 i hi q hq]
  refine ⟨⟨h.1.1, fun i hi q hq => by rw [hval i hi q hq]; rfl⟩, fun i hi q hq => by simp [Mat.val, hval i hi q hq], fun p hp => ?_⟩
  rw [h2.2 p (fun ⟨i, hi, e⟩ => hp (e ▸ Mat.cell_addr hi hk)), h.2.2 p hp]

theorem ab_row {x : Mat} {m m1 m2 : Mem K} {F : Nat → Nat → K} {G : Nat → K} {k : Nat} (hk : k < x.rows)
    (h : MatBecomes x m F m1) (h2 : AB (fun i => x.addr k i) x.cols m1 G m2) :
    MatBecomes x m (fun q i => if q = k then G i else F q i) m2 := by
  have hval : ∀ q < x.rows, ∀ i < x.cols, m2 (x.addr q i) = some (if q = k then G i else F q i) := by
    intro q hq i hi
    by_cases e : q = k
    · subst e; rw [if_pos rfl]; exact h2.1 i hi
    · rw [if_neg e, h2.2 _ (fun ⟨i', hi', e'⟩ => e (Mat.addr_inj h.1.1 hq hk e').1), h.1.some hq hi, h.2.1 q hq i hi]
  refine ⟨⟨h.1.1, fun i hi q hq => by rw [hval i hi q hq]; rfl⟩, fun i hi q hq => by simp [Mat.val, hval i hi q hq], fun p hp => ?_⟩
  rw [h2.2 p (fun ⟨i, hi, e⟩ => hp (e ▸ Mat.cell_addr hk hi)), h.2.2 p hp]

theorem ab_of_becomes_col {x : Mat} {m m1 : Mem K} {F : Nat → Nat → K} (h : MatBecomes x m F m1) {k : Nat} (hk : k < x.cols) :
    AB (fun i => x.addr i k) x.rows m1 (fun i => F i k) m1 :=
  ⟨fun i hi => by rw [h.1.some hi hk, h.2.1 i hi k hk], fun _ _ => rfl⟩

theorem ab_of_becomes_row {x : Mat} {m m1 : Mem K} {F : Nat → Nat → K} (h : MatBecomes x m F m1) {k : Nat} (hk : k < x.rows) :
    AB (fun i => x.addr k i) x.cols m1 (fun i => F k i) m1 :=
  ⟨fun i hi => by rw [h.1.some hk hi, h.2.1 k hk i hi], fun _ _ => rfl⟩

/-- apply an operation to every column -/
theorem columns_tot {x : Mat} {m : Mem K} (hx : x.Valid m) {body : Nat → Mem K → R (Mem K)} {f : (Nat → K) → Nat → K}
    (hb : ∀ k < x.cols, ∀ m1 F, MatBecomes x m F m1 → Tot (body k m1) (AB (fun i => x.addr i k) x.rows m1 (f fun i => F i k))) :
    Tot (forUp 0 x.cols body m) (MatBecomes x m fun i q => f (fun i => x.val m i q) i) := by
  refine (forUp_tot (fun k m1 => MatBecomes x m (fun i q => if q < k then f (fun i => x.val m i q) i else x.val m i q) m1)
    (Nat.zero_le _) (becomes_congr (becomes_self hx) fun i _ q _ => by rw [if_neg (by omega)]) ?_).mono fun m' h =>
      becomes_congr h fun i _ q hq => by rw [if_pos hq]
  intro k m1 _ hk h
  refine (hb k hk m1 _ h).mono fun m2 h2 => becomes_congr (ab_column hk h h2) fun i _ q _ => ?_
  by_cases e : q = k
  · subst e
    simp
  · rw [if_neg e]
    by_cases e' : q < k
    · rw [if_pos e', if_pos (by omega)]
    · rw [if_neg e', if_neg (by omega)]

/-- apply an operation to every row -/
theorem rows_tot {x : Mat} {m : Mem K} (hx : x.Valid m) {body : Nat → Mem K → R (Mem K)} {f : (Nat → K) → Nat → K}
    (hb : ∀ k < x.rows, ∀ m1 F, MatBecomes x m F m1 → Tot (body k m1) (AB (fun i => x.addr k i) x.cols m1 (f fun i => F k i))) :
    Tot (forUp 0 x.rows body m) (MatBecomes x m fun q i => f (fun i => x.val m q i) i) := by
  refine (forUp_tot (fun k m1 => MatBecomes x m (fun q i => if q < k then f (fun i => x.val m q i) i else x.val m q i) m1)
    (Nat.zero_le _) (becomes_congr (becomes_self hx) fun i _ q _ => by rw [if_neg (by omega)]) ?_).mono fun m' h =>
      becomes_congr h fun q hq i _ => by rw [if_pos hq]
  intro k m1 _ hk h
  refine (hb k hk m1 _ h).mono fun m2 h2 => becomes_congr (ab_row hk h h2) fun q _ i _ => ?_
  by_cases e : q = k
  · subst e
    simp
  · rw [if_neg e]
    by_cases e' : q < k
    · rw [if_pos e', if_pos (by omega)]
    · rw [if_neg e', if_neg (by omega)]

/-- one column of the product -/
def evalF (T : Nat → Nat → K) (p q : Nat) (X : Nat → K) (i : Nat) : K := if i < p then ∑ j ∈ Finset.range q, T i j * X j else X i

theorem trieval_tot {a x : Mat} {m : Mem K} (ha : a.Valid m) (hx : x.Valid m) (hd : Disj a.Cell x.Cell)
    (lower unit trans xtrans : Bool) (hr : a.rows ≤ opRows xtrans x) (hc : a.cols ≤ opRows xtrans x) :
    Tot (trieval lower unit trans a xtrans x m) (fun m' => ∃ X, MatBecomes x m X m' ∧ ∀ i q, op xtrans X i q =
      if i < opRows trans a then
        ∑ j ∈ Finset.range (opCols trans a), op trans (tri lower unit (a.val m)) i j * op xtrans (x.val m) j q
      else op xtrans (x.val m) i q) := by
  have inj1 : ∀ k, ∀ i < x.rows, ∀ j < x.rows, x.addr i k = x.addr j k → i = j := fun k i hi j hj e =>
    (Mat.addr_inj hx.1 hi hj e).1
  have inj2 : ∀ k < x.rows, ∀ i < x.cols, ∀ j < x.cols, x.addr k i = x.addr k j → i = j := fun k hk i hi j hj e =>
    (Mat.addr_inj hx.1 hk hk e).2
  have rd : ∀ {m1 : Mem K} {F}, MatBecomes x m F m1 → ∀ i < a.rows, ∀ j < a.cols, m1 (a.addr i j) = some (a.val m i j) :=
    fun h i hi j hj => by rw [h.2.2 _ (hd _ (Mat.cell_addr hi hj)), ha.some hi hj]
  have h1 : ∀ k < x.cols, ∀ {m1 : Mem K} {F}, MatBecomes x m F m1 → ∀ i < a.rows, ∀ j < a.cols,
      m1 (a.addr i j) = some (a.val m i j) ∧ ∀ l < x.rows, a.addr i j ≠ x.addr l k :=
    fun k hk m1 F h i hi j hj => ⟨rd h i hi j hj, fun l hl e => hd _ (Mat.cell_addr hi hj) (e ▸ Mat.cell_addr hl hk)⟩
  have h2 : ∀ k < x.rows, ∀ {m1 : Mem K} {F}, MatBecomes x m F m1 → ∀ i < a.rows, ∀ j < a.cols,
      m1 (a.addr i j) = some (a.val m i j) ∧ ∀ l < x.cols, a.addr i j ≠ x.addr k l :=
    fun k hk m1 F h i hi j hj => ⟨rd h i hi j hj, fun l hl e => hd _ (Mat.cell_addr hi hj) (e ▸ Mat.cell_addr hk hl)⟩
  unfold trieval lowereval uppereval
  unfold opRows at hr hc
  cases xtrans <;> simp only [Bool.false_eq_true, if_false, if_true] at hr hc
  · refine Tot.mono (P := MatBecomes x m fun i q => evalF (op trans (tri lower unit (a.val m))) (opRows trans a) (opCols trans a)
      (fun i => x.val m i q) i) ?_
      fun m' h => ⟨_, h, fun i q => rfl⟩
    cases lower <;> cases trans <;> simp only [Bool.false_eq_true, if_false, if_true] <;>
      refine Tot.cassert (by simpa using hr) (Tot.cassert (by simpa using hc) ?_) <;>
      refine columns_tot hx fun k hk m1 F hF => ?_
    · refine (evalUpper_tot (fun _ => rfl) (A := a.val m) (inj1 k) (ab_of_becomes_col hF hk) hr hc (h1 k hk hF)).mono fun m' h =>
        ab_congr h fun i _ => ?_
      simp only [evalF, opRows, opCols, Bool.false_eq_true, if_false, if_true]
      by_cases e : i < a.rows
      · rw [if_pos e, upper_sum (p := a.rows) (C := a.val m) (D := fun i => if unit then 1 else a.val m i i)
          (fun i j => by rw [op_tri]; simp [op]) e, if_pos e]
        simp only [id]
      · rw [if_neg e, if_neg (by omega), if_neg e]
    · rw [min_comm]
      refine (evalLower_tot (fun _ => rfl) (A := fun i j => a.val m j i) (inj1 k) (ab_of_becomes_col hF hk) hc hr rfl (fun _ => rfl)
        (fun i hi j hj => h1 k hk hF j hj i hi)).mono fun m' h => ab_congr h fun i _ => ?_
      simp only [evalF, opRows, opCols, Bool.false_eq_true, if_false, if_true]
      by_cases e : i < a.cols
      · rw [if_pos e, lower_sum (p := a.cols) (C := fun i j => star (a.val m j i)) (D := fun i => if unit then 1 else star (a.val m i i))
          (fun i j => by rw [op_tri]; simp [op]) e, if_pos e]
      · rw [if_neg e, if_neg (by omega), if_neg e]
    · refine (evalLower_tot (fun _ => rfl) (A := a.val m) (inj1 k) (ab_of_becomes_col hF hk) hr hc rfl (fun _ => rfl) (h1 k hk hF)).mono fun m' h =>
        ab_congr h fun i _ => ?_
      simp only [evalF, opRows, opCols, Bool.false_eq_true, if_false, if_true]
      by_cases e : i < a.rows
      · rw [if_pos e, lower_sum (p := a.rows) (C := a.val m) (D := fun i => if unit then 1 else a.val m i i)
          (fun i j => by rw [op_tri]; simp [op]) e, if_pos e]
        simp only [id]
      · rw [if_neg e, if_neg (by omega), if_neg e]
    · rw [min_comm]
      refine (evalUpper_tot (fun _ => rfl) (A := fun i j => a.val m j i) (inj1 k) (ab_of_becomes_col hF hk) hc hr
        (fun i hi j hj => h1 k hk hF j hj i hi)).mono fun m' h => ab_congr h fun i _ => ?_
      simp only [evalF, opRows, opCols, Bool.false_eq_true, if_false, if_true]
      by_cases e : i < a.cols
      · rw [if_pos e, upper_sum (p := a.cols) (C := fun i j => star (a.val m j i)) (D := fun i => if unit then 1 else star (a.val m i i))
          (fun i j => by rw [op_tri]; simp [op]) e, if_pos e]
      · rw [if_neg e, if_neg (by omega), if_neg e]
  · refine Tot.mono (P := MatBecomes x m fun q i => evalF (fun i j => star (op trans (tri lower unit (a.val m)) i j)) (opRows trans a)
      (opCols trans a) (fun i => x.val m q i) i) ?_
      fun m' h => ⟨_, h, fun i q => ?_⟩
    rotate_left
    · simp only [evalF, op, if_true, apply_ite star, star_sum, star_mul', star_star]
    cases lower <;> cases trans <;> simp only [Bool.false_eq_true, if_false, if_true] <;>
      refine Tot.cassert (by simpa using hr) (Tot.cassert (by simpa using hc) ?_) <;>
      refine rows_tot hx fun k hk m1 F hF => ?_
    · refine (evalUpper_tot (fun _ => rfl) (A := a.val m) (inj2 k hk) (ab_of_becomes_row hF hk) hr hc (h2 k hk hF)).mono fun m' h =>
        ab_congr h fun i _ => ?_
      simp only [evalF, opRows, opCols, Bool.false_eq_true, if_false, if_true]
      by_cases e : i < a.rows
      · rw [if_pos e, if_pos e]
        exact (upper_sum (T := fun i j => star (op false (tri false unit (a.val m)) i j)) (p := a.rows) (C := fun i j => star (a.val m i j)) (D := fun i => if unit then 1 else star (a.val m i i))
          (fun i j => by rw [op_tri]; simp [op, apply_ite star]) e).symm
      · rw [if_neg e, if_neg (by omega), if_neg e]
    · rw [min_comm]
      refine (evalLower_tot (fun _ => rfl) (A := fun i j => a.val m j i) (inj2 k hk) (ab_of_becomes_row hF hk) hc hr rfl (fun _ => rfl)
        (fun i hi j hj => h2 k hk hF j hj i hi)).mono fun m' h => ab_congr h fun i _ => ?_
      simp only [evalF, opRows, opCols, Bool.false_eq_true, if_false, if_true]
      by_cases e : i < a.cols
      · rw [if_pos e, if_pos e]
        exact (lower_sum (T := fun i j => star (op true (tri false unit (a.val m)) i j)) (p := a.cols) (C := fun i j => a.val m j i) (D := fun i => if unit then 1 else a.val m i i)
          (fun i j => by rw [op_tri]; simp [op, apply_ite star]) e).symm
      · rw [if_neg e, if_neg (by omega), if_neg e]
    · refine (evalLower_tot (fun _ => rfl) (A := a.val m) (inj2 k hk) (ab_of_becomes_row hF hk) hr hc rfl (fun _ => rfl) (h2 k hk hF)).mono fun m' h =>
        ab_congr h fun i _ => ?_
      simp only [evalF, opRows, opCols, Bool.false_eq_true, if_false, if_true]
      by_cases e : i < a.rows
      · rw [if_pos e, if_pos e]
        exact (lower_sum (T := fun i j => star (op false (tri true unit (a.val m)) i j)) (p := a.rows) (C := fun i j => star (a.val m i j)) (D := fun i => if unit then 1 else star (a.val m i i))
          (fun i j => by rw [op_tri]; simp [op, apply_ite star]) e).symm
      · rw [if_neg e, if_neg (by omega), if_neg e]
    · rw [min_comm]
      refine (evalUpper_tot (fun _ => rfl) (A := fun i j => a.val m j i) (inj2 k hk) (ab_of_becomes_row hF hk) hc hr
        (fun i hi j hj => h2 k hk hF j hj i hi)).mono fun m' h => ab_congr h fun i _ => ?_
      simp only [evalF, opRows, opCols, Bool.false_eq_true, if_false, if_true]
      by_cases e : i < a.cols
      · rw [if_pos e, if_pos e]
        exact (upper_sum (T := fun i j => star (op true (tri true unit (a.val m)) i j)) (p := a.cols) (C := fun i j => a.val m j i) (D := fun i => if unit then 1 else a.val m i i)
          (fun i j => by rw [op_tri]; simp [op, apply_ite star]) e).symm
      · rw [if_neg e, if_neg (by omega), if_neg e]

end H2.Dense
