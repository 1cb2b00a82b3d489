import Verif.Proof.FactorLR

/-! # Solving with triangular factors -/

set_option linter.unusedSectionVars false

namespace H2.Dense
open Spec
variable {K : Type} [Field K] [StarRing K]

/-- solutions of triangular systems are unique -/
theorem tri_unique {n : Nat} {T : Nat → Nat → K} {X Y : Nat → K} (low : Bool) (hd : ∀ i < n, T i i ≠ 0)
    (hz : ∀ i < n, ∀ j < n, (if low then i < j else j < i) → T i j = 0)
    (h : ∀ i < n, ∑ j ∈ Finset.range n, T i j * X j = ∑ j ∈ Finset.range n, T i j * Y j) : ∀ i < n, X i = Y i := by
  have red : ∀ i < n, (∀ j < n, j ≠ i → T i j = 0 ∨ X j = Y j) → X i = Y i := by
    intro i hi hj
    have := h i hi
    rw [← Finset.add_sum_erase _ _ (Finset.mem_range.mpr hi), ← Finset.add_sum_erase (a := i) _ _ (Finset.mem_range.mpr hi)] at this
    have e : ∑ j ∈ (Finset.range n).erase i, T i j * X j = ∑ j ∈ (Finset.range n).erase i, T i j * Y j := by
      refine Finset.sum_congr rfl fun j hj' => ?_
      obtain ⟨h1, h2⟩ := Finset.mem_erase.mp hj'
      rcases hj j (Finset.mem_range.mp h2) h1 with h | h
      · rw [h, zero_mul, zero_mul]
      · rw [h]
    rw [e] at this
    exact mul_left_cancel₀ (hd i hi) (add_right_cancel this)
  cases low
  · have : ∀ k i, i < n → n - i = k → X i = Y i := by
      intro k
      induction k using Nat.strong_induction_on with
      | _ k ih =>
        intro i hi hk
        refine red i hi fun j hj hne => ?_
        by_cases e : j < i
        · exact .inl (hz i hi j hj (by simpa using e))
        · exact .inr (ih (n - j) (by omega) j hj rfl)
    exact fun i hi => this _ i hi rfl
  · intro i
    induction i using Nat.strong_induction_on with
    | _ i ih =>
      intro hi
      refine red i hi fun j hj hne => ?_
      by_cases e : i < j
      · exact .inl (hz i hi j hj (by simpa using e))
      · exact .inr (ih j (by omega) hj)

theorem optri_unique {n : Nat} {A : Nat → Nat → K} {X Y : Nat → K} (lower unit trans : Bool)
    (hD : unit = false → ∀ j < n, A j j ≠ 0)
    (h : ∀ i < n, ∑ j ∈ Finset.range n, op trans (tri lower unit A) i j * X j =
      ∑ j ∈ Finset.range n, op trans (tri lower unit A) i j * Y j) : ∀ i < n, X i = Y i := by
  refine tri_unique (low := lower != trans) (fun i hi => ?_) (fun i _ j _ hij => ?_) h
  · rw [op_tri, if_pos rfl]
    cases unit
    · have := hD rfl i hi
      cases trans <;> simpa [op] using this
    · simp
  · rw [op_tri]
    cases lower <;> cases trans <;> simp at hij ⊢ <;> rw [if_neg (by omega), if_neg (by omega)]

/-- the product of the two factors -/
theorem op_mul (trans : Bool) {n : Nat} {A L U : Nat → Nat → K} {r c : Nat} (hr : r < n) (hc : c < n)
    (h : ∀ r < n, ∀ c < n, ∑ l ∈ Finset.range n, L r l * U l c = A r c) :
    op trans A r c = if trans then ∑ l ∈ Finset.range n, op true U r l * op true L l c else
      ∑ l ∈ Finset.range n, op false L r l * op false U l c := by
  cases trans
  · simp only [op, Bool.false_eq_true, if_false]
    exact (h r hr c hc).symm
  · simp only [op, if_true]
    rw [← h c hc r hr, star_sum]
    exact Finset.sum_congr rfl fun l _ => by rw [star_mul', mul_comm]

/-- two successive systems -/
theorem compose_systems {n : Nat} {P Q M : Nat → Nat → K} {b Y X : Nat → K}
    (hM : ∀ r < n, ∀ c < n, M r c = ∑ l ∈ Finset.range n, P r l * Q l c)
    (h1 : ∀ i < n, ∑ j ∈ Finset.range n, P i j * Y j = b i) (h2 : ∀ i < n, ∑ j ∈ Finset.range n, Q i j * X j = Y i) :
    ∀ i < n, ∑ j ∈ Finset.range n, M i j * X j = b i := by
  intro i hi
  rw [← h1 i hi]
  have e : ∀ j ∈ Finset.range n, P i j * Y j = ∑ k ∈ Finset.range n, P i j * Q j k * X k := fun j hj => by
    rw [← h2 j (Finset.mem_range.mp hj), Finset.mul_sum]
    exact Finset.sum_congr rfl fun k _ => by ring
  rw [Finset.sum_congr rfl e, Finset.sum_comm]
  refine Finset.sum_congr rfl fun k hk => ?_
  rw [hM i hi k (Finset.mem_range.mp hk), Finset.sum_mul]

/-- two triangular solves in a row -/
theorem solve2_tot {a : Mat} {x : Vec} {m : Mem K} (ha : a.Valid m) (hx : x.Valid m) (hd : Disj a.Cell x.Cell)
    (hsq : a.rows = a.cols) (hr : a.rows ≤ x.dim) (lower unit trans lower' unit' trans' : Bool)
    (hD : (unit = false ∨ unit' = false) → ∀ j < a.rows, a.val m j j ≠ 0) {M : Nat → Nat → K}
    (hM : ∀ r < a.rows, ∀ c < a.rows, M r c = ∑ l ∈ Finset.range a.rows,
      op trans (tri lower unit (a.val m)) r l * op trans' (tri lower' unit' (a.val m)) l c) :
    Tot (trisolveVec lower unit trans a x m >>= trisolveVec lower' unit' trans' a x) (fun m' => ∃ X, VecBecomes x m X m' ∧
      (∀ i < a.rows, ∑ j ∈ Finset.range a.rows, M i j * X j = x.val m i) ∧ ∀ i, a.rows ≤ i → i < x.dim → X i = x.val m i) := by
  have hmin : min a.rows a.cols = a.rows := by omega
  refine Tot.bind (trisolveVec_tot ha hx hd hr (by omega) lower unit trans (fun h j hj => hD (.inl h) j (by omega))) ?_
  rintro m1 - ⟨Y, h1, h2, h3⟩
  rw [hmin] at h2 h3
  have hv : a.Valid m1 := ⟨ha.1, fun i hi j hj => by rw [h1.2.2 _ (hd _ (Mat.cell_addr hi hj))]; exact ha.2 i hi j hj⟩
  have he : ∀ i < a.rows, ∀ j < a.cols, a.val m1 i j = a.val m i j := fun i hi j hj => by
    unfold Mat.val; rw [h1.2.2 _ (hd _ (Mat.cell_addr hi hj))]
  refine (trisolveVec_tot hv h1.1 hd hr (by omega) lower' unit' trans'
    (fun h j hj => by rw [he j (by omega) j (by omega)]; exact hD (.inr h) j (by omega))).mono ?_
  rintro m2 ⟨X, h4, h5, h6⟩
  rw [hmin] at h5 h6
  have hX : ∀ i, a.rows ≤ i → i < x.dim → X i = x.val m i := fun i hi hid => by rw [h6 i hi, h1.2.1 i hid, h3 i hi]
  refine ⟨X, ⟨h4.1, h4.2.1, fun c hc => by rw [h4.2.2 c hc, h1.2.2 c hc]⟩, ?_, hX⟩
  · have tri_eq : ∀ r < a.rows, ∀ l < a.rows, op trans' (tri lower' unit' (a.val m1)) r l =
        op trans' (tri lower' unit' (a.val m)) r l := by
      intro r hr' l hl
      cases trans' <;> simp only [op, tri, Bool.false_eq_true, if_false, if_true] <;>
        rw [he _ (by omega) _ (by omega), he _ (by omega) _ (by omega)]
    have : ∀ i < a.rows, ∑ j ∈ Finset.range a.rows, op trans' (tri lower' unit' (a.val m)) i j * X j = Y i := by
      intro i hi
      rw [← h1.2.1 i (by omega), ← h5 i hi]
      exact Finset.sum_congr rfl fun j hj => by rw [tri_eq i hi j (Finset.mem_range.mp hj)]
    exact compose_systems hM h2 this

/-- two triangular solves in a row, applied to the columns of a matrix -/
theorem solve2mat_tot {a x : Mat} {m : Mem K} (ha : a.Valid m) (hx : x.Valid m) (hd : Disj a.Cell x.Cell)
    (hsq : a.rows = a.cols) (hr : a.rows ≤ x.rows) (lower unit trans lower' unit' trans' : Bool)
    (hD : (unit = false ∨ unit' = false) → ∀ j < a.rows, a.val m j j ≠ 0) {M : Nat → Nat → K}
    (hM : ∀ r < a.rows, ∀ c < a.rows, M r c = ∑ l ∈ Finset.range a.rows,
      op trans (tri lower unit (a.val m)) r l * op trans' (tri lower' unit' (a.val m)) l c) :
    Tot (trisolve lower unit trans a false x m >>= trisolve lower' unit' trans' a false x) (fun m' => ∃ X, MatBecomes x m X m' ∧
      (∀ i < a.rows, ∀ q < x.cols, ∑ j ∈ Finset.range a.rows, M i j * X j q = x.val m i q) ∧
      ∀ i, a.rows ≤ i → i < x.rows → ∀ q < x.cols, X i q = x.val m i q) := by
  have hmin : min a.rows a.cols = a.rows := by omega
  refine Tot.bind (trisolve_tot ha hx hd lower unit trans false (by simp only [opRows]; simp; omega)
    (fun h j hj => hD (.inl h) j (by omega))) ?_
  rintro m1 - ⟨Y, h1, h2, h3⟩
  rw [hmin] at h2 h3
  have hv : a.Valid m1 := ⟨ha.1, fun i hi j hj => by rw [h1.2.2 _ (hd _ (Mat.cell_addr hi hj))]; exact ha.2 i hi j hj⟩
  have he : ∀ i < a.rows, ∀ j < a.cols, a.val m1 i j = a.val m i j := fun i hi j hj => by
    unfold Mat.val; rw [h1.2.2 _ (hd _ (Mat.cell_addr hi hj))]
  refine (trisolve_tot hv h1.1 hd lower' unit' trans' false (by simp only [opRows]; simp; omega)
    (fun h j hj => by rw [he j (by omega) j (by omega)]; exact hD (.inr h) j (by omega))).mono ?_
  rintro m2 ⟨X, h4, h5, h6⟩
  rw [hmin] at h5 h6
  simp only [op, Bool.false_eq_true, if_false] at h2 h3 h5 h6
  refine ⟨X, ⟨h4.1, h4.2.1, fun c hc => by rw [h4.2.2 c hc, h1.2.2 c hc]⟩, fun i hi q hq => ?_, fun i hi hid q hq => ?_⟩
  · have tri_eq : ∀ r < a.rows, ∀ l < a.rows, op trans' (tri lower' unit' (a.val m1)) r l =
        op trans' (tri lower' unit' (a.val m)) r l := by
      intro r hr' l hl
      cases trans' <;> simp only [op, tri, Bool.false_eq_true, if_false, if_true] <;>
        rw [he _ (by omega) _ (by omega), he _ (by omega) _ (by omega)]
    have : ∀ i < a.rows, ∑ j ∈ Finset.range a.rows, op trans' (tri lower' unit' (a.val m)) i j * X j q = Y i q := by
      intro i hi
      rw [← h1.2.1 i (by omega) q hq, ← h5 i hi q]
      exact Finset.sum_congr rfl fun j hj => by rw [← tri_eq i hi j (Finset.mem_range.mp hj)]; rfl
    exact compose_systems hM (fun i hi => h2 i hi q) this i hi
  · rw [h6 i hi q, h1.2.1 i hid q hq, h3 i hi q]

/-- two triangular products in a row -/
theorem eval2_tot {a : Mat} {x : Vec} {m : Mem K} (ha : a.Valid m) (hx : x.Valid m) (hd : Disj a.Cell x.Cell)
    (hsq : a.rows = a.cols) (hr : a.rows ≤ x.dim) (lower unit trans lower' unit' trans' : Bool) {M : Nat → Nat → K}
    (hM : ∀ r < a.rows, ∀ c < a.rows, M r c = ∑ l ∈ Finset.range a.rows,
      op trans' (tri lower' unit' (a.val m)) r l * op trans (tri lower unit (a.val m)) l c) :
    Tot (trievalVec lower unit trans a x m >>= trievalVec lower' unit' trans' a x) (VecBecomes x m fun i =>
      if i < a.rows then ∑ j ∈ Finset.range a.rows, M i j * x.val m j else x.val m i) := by
  have o1 : ∀ t, opRows t a = a.rows := fun t => by unfold opRows; cases t <;> simp [hsq]
  have o2 : ∀ t, opCols t a = a.rows := fun t => by unfold opCols; cases t <;> simp [hsq]
  refine Tot.bind (trievalVec_tot ha hx hd hr (by omega) lower unit trans) ?_
  intro m1 _ h1
  rw [o1, o2] at h1
  have hv : a.Valid m1 := ⟨ha.1, fun i hi j hj => by rw [h1.2.2 _ (hd _ (Mat.cell_addr hi hj))]; exact ha.2 i hi j hj⟩
  have he : ∀ i < a.rows, ∀ j < a.cols, a.val m1 i j = a.val m i j := fun i hi j hj => by
    unfold Mat.val; rw [h1.2.2 _ (hd _ (Mat.cell_addr hi hj))]
  refine (trievalVec_tot hv h1.1 hd hr (by omega) lower' unit' trans').mono fun m2 h2 => ?_
  rw [o1, o2] at h2
  refine ⟨h2.1, fun i hi => ?_, fun c hc => by rw [h2.2.2 c hc, h1.2.2 c hc]⟩
  rw [h2.2.1 i hi]
  have h1' : ∀ i < x.dim, x.val m1 i = if i < a.rows then ∑ j ∈ Finset.range a.rows, op trans (tri lower unit (a.val m)) i j * x.val m j
    else x.val m i := h1.2.1
  simp only
  by_cases e : i < a.rows
  · rw [if_pos e, if_pos e]
    have tri_eq : ∀ r < a.rows, ∀ l < a.rows, op trans' (tri lower' unit' (a.val m1)) r l =
        op trans' (tri lower' unit' (a.val m)) r l := by
      intro r hr' l hl
      cases trans' <;> simp only [op, tri, Bool.false_eq_true, if_false, if_true] <;>
        rw [he _ (by omega) _ (by omega), he _ (by omega) _ (by omega)]
    rw [compose_systems (X := x.val m) (Y := x.val m1) (b := fun i => ∑ j ∈ Finset.range a.rows, op trans' (tri lower' unit' (a.val m)) i j *
      x.val m1 j) hM (fun i _ => rfl) (fun i hi => ?_) i e]
    · exact Finset.sum_congr rfl fun j hj => by rw [tri_eq i e j (Finset.mem_range.mp hj)]
    · rw [h1' i (by omega), if_pos hi]
  · rw [if_neg e, if_neg e, h1' i hi, if_neg e]

/-- a vector that becomes what it was leaves the memory unchanged -/
theorem vec_restored {x : Vec} {m m' : Mem K} (hx : x.Valid m) (h : VecBecomes x m (x.val m) m') : m' = m := by
  funext c
  by_cases e : x.Cell c
  · obtain ⟨i, hi, rfl⟩ := e
    rw [h.1.some hi, h.2.1 i hi, hx.some hi]
  · exact h.2.2 c e

theorem mat_restored {x : Mat} {m m' : Mem K} (hx : x.Valid m) (h : MatBecomes x m (x.val m) m') : m' = m := by
  funext c
  by_cases e : x.Cell c
  · obtain ⟨i, hi, j, hj, rfl⟩ := e
    rw [h.1.some hi hj, h.2.1 i hi j hj, hx.some hi hj]
  · exact h.2.2 c e

end H2.Dense
