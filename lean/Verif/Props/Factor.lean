import Verif.Proof.FactorUse
import Verif.Proof.FactorTasks
import Mathlib.Tactic.Linarith
import Mathlib.Tactic.IntervalCases

/-!
# C41, C42, C43: triangular matrices and the LR decomposition

`tri lower unit A` is the triangular matrix stored in one triangle of `A` (Spec/Factor.lean), `op trans` the matrix or its
adjoint, `A` and `x` are the contents before the call, and `min rows cols` is the order of the square part.
-/

set_option linter.unusedSectionVars false

namespace H2.Props
open Spec Dense
variable {K : Type} [Field K] [StarRing K]

/-! ## C43 -/

/-- `triangularsolve_amatrix_avector` (lower and upper, unit and non-unit, plain and adjoint) solves the triangular system,
leaves the remaining entries of `x` and the rest of the memory alone, and never refers to the other triangle. -/
theorem C43_solve_vec {a : Mat} {x : Vec} {m : Mem K} (ha : a.Valid m) (hx : x.Valid m) (hd : Disj a.Cell x.Cell)
    (hr : a.rows ≤ x.dim) (hc : a.cols ≤ x.dim) (lower unit trans : Bool)
    (hD : unit = false → ∀ j < min a.rows a.cols, a.val m j j ≠ 0) :
    Tot (trisolveVec lower unit trans a x m) fun m' => x.Valid m' ∧ Frame x.Cell m m' ∧
      (∀ i < min a.rows a.cols, ∑ j ∈ Finset.range (min a.rows a.cols), op trans (tri lower unit (a.val m)) i j * x.val m' j =
        x.val m i) ∧
      ∀ i, min a.rows a.cols ≤ i → i < x.dim → x.val m' i = x.val m i := by
  refine (trisolveVec_tot ha hx hd hr hc lower unit trans hD).mono ?_
  rintro m' ⟨X, h1, h2, h3⟩
  refine ⟨h1.1, h1.2.2, fun i hi => ?_, fun i hi hid => by rw [h1.2.1 i hid, h3 i hi]⟩
  rw [← h2 i hi]
  exact Finset.sum_congr rfl fun j hj => by rw [h1.2.1 j (by have := Finset.mem_range.mp hj; omega)]

/-- `triangularsolve_amatrix` solves for all columns of `X`, or of `X^*` if `xtrans` is set. -/
theorem C43_solve_mat {a x : Mat} {m : Mem K} (ha : a.Valid m) (hx : x.Valid m) (hd : Disj a.Cell x.Cell)
    (lower unit trans xtrans : Bool) (hn : min a.rows a.cols ≤ opRows xtrans x)
    (hD : unit = false → ∀ j < min a.rows a.cols, a.val m j j ≠ 0) :
    Tot (trisolve lower unit trans a xtrans x m) fun m' => x.Valid m' ∧ Frame x.Cell m m' ∧
      ∀ q < opCols xtrans x,
        (∀ i < min a.rows a.cols, ∑ j ∈ Finset.range (min a.rows a.cols),
          op trans (tri lower unit (a.val m)) i j * op xtrans (x.val m') j q = op xtrans (x.val m) i q) ∧
        ∀ i, min a.rows a.cols ≤ i → i < opRows xtrans x → op xtrans (x.val m') i q = op xtrans (x.val m) i q := by
  refine (trisolve_tot ha hx hd lower unit trans xtrans hn hD).mono ?_
  rintro m' ⟨X, h1, h2, h3⟩
  have e : ∀ i < opRows xtrans x, ∀ q < opCols xtrans x, op xtrans (x.val m') i q = op xtrans X i q := by
    intro i hi q hq
    cases xtrans
    · exact h1.2.1 i hi q hq
    · exact congrArg star (h1.2.1 q hq i hi)
  refine ⟨h1.1, h1.2.2, fun q hq => ⟨fun i hi => ?_, fun i hi hid => by rw [e i hid q hq, h3 i hi q]⟩⟩
  rw [← h2 i hi q]
  exact Finset.sum_congr rfl fun j hj => by rw [e j (by have := Finset.mem_range.mp hj; omega) q hq]

/-- `triangulareval_amatrix_avector` multiplies by the triangular or trapezoidal matrix in place. -/
theorem C43_eval_vec {a : Mat} {x : Vec} {m : Mem K} (ha : a.Valid m) (hx : x.Valid m) (hd : Disj a.Cell x.Cell)
    (hr : a.rows ≤ x.dim) (hc : a.cols ≤ x.dim) (lower unit trans : Bool) :
    Tot (trievalVec lower unit trans a x m) (VecBecomes x m fun i => if i < opRows trans a then
      ∑ j ∈ Finset.range (opCols trans a), op trans (tri lower unit (a.val m)) i j * x.val m j else x.val m i) :=
  trievalVec_tot ha hx hd hr hc lower unit trans

/-- `triangulareval_amatrix` multiplies all columns of `X`, or of `X^*` if `xtrans` is set. -/
theorem C43_eval_mat {a x : Mat} {m : Mem K} (ha : a.Valid m) (hx : x.Valid m) (hd : Disj a.Cell x.Cell)
    (lower unit trans xtrans : Bool) (hr : a.rows ≤ opRows xtrans x) (hc : a.cols ≤ opRows xtrans x) :
    Tot (trieval lower unit trans a xtrans x m) fun m' => x.Valid m' ∧ Frame x.Cell m m' ∧
      ∀ i < opRows xtrans x, ∀ q < opCols xtrans x, op xtrans (x.val m') i q = if i < opRows trans a then
        ∑ j ∈ Finset.range (opCols trans a), op trans (tri lower unit (a.val m)) i j * op xtrans (x.val m) j q
      else op xtrans (x.val m) i q := by
  refine (trieval_tot ha hx hd lower unit trans xtrans hr hc).mono ?_
  rintro m' ⟨X, h1, h2⟩
  refine ⟨h1.1, h1.2.2, fun i hi q hq => ?_⟩
  rw [← h2 i q]
  cases xtrans
  · exact h1.2.1 i hi q hq
  · exact congrArg star (h1.2.1 q hq i hi)

/-- For a square matrix with non-zero diagonal, multiplying and then solving restores the memory completely. -/
theorem C43_eval_solve {a : Mat} {x : Vec} {m : Mem K} (ha : a.Valid m) (hx : x.Valid m) (hd : Disj a.Cell x.Cell)
    (hsq : a.rows = a.cols) (hr : a.rows ≤ x.dim) (lower unit trans : Bool)
    (hD : unit = false → ∀ j < a.rows, a.val m j j ≠ 0) :
    (trievalVec lower unit trans a x m >>= trisolveVec lower unit trans a x) = .ok m := by
  suffices Tot (trievalVec lower unit trans a x m >>= trisolveVec lower unit trans a x) (fun m' => m' = m) by
    obtain ⟨m', h, rfl⟩ := this; exact h
  have o1 : opRows trans a = a.rows := by unfold opRows; cases trans <;> simp [hsq]
  have o2 : opCols trans a = a.rows := by unfold opCols; cases trans <;> simp [hsq]
  have hmin : min a.rows a.cols = a.rows := by omega
  refine Tot.bind (trievalVec_tot ha hx hd hr (by omega) lower unit trans) ?_
  intro m1 _ h1
  rw [o1, o2] at h1
  have hv : a.Valid m1 := ⟨ha.1, fun i hi j hj => by rw [h1.2.2 _ (hd _ (Mat.cell_addr hi hj))]; exact ha.2 i hi j hj⟩
  have he : ∀ i < a.rows, ∀ j < a.cols, a.val m1 i j = a.val m i j := fun i hi j hj => by
    unfold Mat.val; rw [h1.2.2 _ (hd _ (Mat.cell_addr hi hj))]
  have hD1 : unit = false → ∀ j < a.rows, a.val m1 j j ≠ 0 := fun h j hj => by rw [he j hj j (by omega)]; exact hD h j hj
  refine (trisolveVec_tot hv h1.1 hd hr (by omega) lower unit trans (by rw [hmin]; exact hD1)).mono ?_
  rintro m2 ⟨X, h2, h3, h4⟩
  rw [hmin] at h3 h4
  refine vec_restored hx ⟨h2.1, fun i hi => ?_, fun c hc => by rw [h2.2.2 c hc, h1.2.2 c hc]⟩
  rw [h2.2.1 i hi]
  have h1' : ∀ i < x.dim, x.val m1 i = if i < a.rows then ∑ j ∈ Finset.range a.rows,
    op trans (tri lower unit (a.val m)) i j * x.val m j else x.val m i := h1.2.1
  by_cases e : i < a.rows
  · refine optri_unique lower unit trans hD1 (fun i hi => ?_) i e
    rw [h3 i hi, h1' i (by omega), if_pos hi]
    refine Finset.sum_congr rfl fun j hj => ?_
    have := Finset.mem_range.mp hj
    congr 1
    cases trans <;> simp only [op, tri, Bool.false_eq_true, if_false, if_true] <;>
      rw [he _ (by omega) _ (by omega), he _ (by omega) _ (by omega)]
  · rw [h4 i (by omega), h1' i hi, if_neg e]

/-- For a square matrix with non-zero diagonal, solving and then multiplying restores the memory completely. -/
theorem C43_solve_eval {a : Mat} {x : Vec} {m : Mem K} (ha : a.Valid m) (hx : x.Valid m) (hd : Disj a.Cell x.Cell)
    (hsq : a.rows = a.cols) (hr : a.rows ≤ x.dim) (lower unit trans : Bool)
    (hD : unit = false → ∀ j < a.rows, a.val m j j ≠ 0) :
    (trisolveVec lower unit trans a x m >>= trievalVec lower unit trans a x) = .ok m := by
  suffices Tot (trisolveVec lower unit trans a x m >>= trievalVec lower unit trans a x) (fun m' => m' = m) by
    obtain ⟨m', h, rfl⟩ := this; exact h
  have o1 : opRows trans a = a.rows := by unfold opRows; cases trans <;> simp [hsq]
  have o2 : opCols trans a = a.rows := by unfold opCols; cases trans <;> simp [hsq]
  have hmin : min a.rows a.cols = a.rows := by omega
  refine Tot.bind (trisolveVec_tot ha hx hd hr (by omega) lower unit trans (by rw [hmin]; exact hD)) ?_
  rintro m1 - ⟨X, h1, h3, h4⟩
  rw [hmin] at h3 h4
  have hv : a.Valid m1 := ⟨ha.1, fun i hi j hj => by rw [h1.2.2 _ (hd _ (Mat.cell_addr hi hj))]; exact ha.2 i hi j hj⟩
  have he : ∀ i < a.rows, ∀ j < a.cols, a.val m1 i j = a.val m i j := fun i hi j hj => by
    unfold Mat.val; rw [h1.2.2 _ (hd _ (Mat.cell_addr hi hj))]
  refine (trievalVec_tot hv h1.1 hd hr (by omega) lower unit trans).mono fun m2 h2 => ?_
  rw [o1, o2] at h2
  refine vec_restored hx ⟨h2.1, fun i hi => ?_, fun c hc => by rw [h2.2.2 c hc, h1.2.2 c hc]⟩
  rw [h2.2.1 i hi]
  simp only
  by_cases e : i < a.rows
  · rw [if_pos e, ← h3 i e]
    refine Finset.sum_congr rfl fun j hj => ?_
    have := Finset.mem_range.mp hj
    rw [h1.2.1 j (by omega)]
    congr 1
    cases trans <;> simp only [op, tri, Bool.false_eq_true, if_false, if_true] <;>
      rw [he _ (by omega) _ (by omega), he _ (by omega) _ (by omega)]
  · rw [if_neg e, h1.2.1 i hi, h4 i (by omega)]

/-! ## C41 -/

/-- `lrdecomp_amatrix` never fails on a non-empty square matrix.  It returns zero iff all leading principal minors are
non-zero, and the order of the first vanishing one otherwise.  If it returns zero, the unit lower triangular times the upper
triangular factor left in `a` is the original matrix, and all pivots are non-zero.  Nothing but `a` is modified. -/
theorem C41_lrdecomp {a : Mat} {m : Mem K} (ha : a.Valid m) (hsq : a.rows = a.cols) (h0 : 0 < a.rows) (hlt : a.rows < 2 ^ 32) :
    Tot (lrdecomp a m) fun (p, m') => a.Valid m' ∧ Frame a.Cell m m' ∧ FirstZeroMinor (a.val m) a.rows p ∧
      (p = 0 → (∀ i < a.rows, a.val m' i i ≠ 0) ∧ ∀ r < a.rows, ∀ c < a.rows, ∑ l ∈ Finset.range a.rows,
        tri true true (a.val m') r l * tri false false (a.val m') l c = a.val m r c) := by
  refine (lrdecomp_tot ha hsq h0 hlt).mono ?_
  rintro ⟨p, m'⟩ ⟨F, h1, h2⟩
  refine ⟨h1.1, h1.2.2, lrPost_minor h2, fun hp => ?_⟩
  obtain ⟨h4, h5⟩ := lrPost_zero (hp ▸ h2)
  have e : ∀ i < a.rows, ∀ j < a.rows, a.val m' i j = F i j := fun i hi j hj => h1.2.1 i hi j (by omega)
  refine ⟨fun i hi => by rw [e i hi i hi]; exact h4 i hi, fun r hr c hc => ?_⟩
  rw [← h5 r hr c hc]
  refine Finset.sum_congr rfl fun l hl => ?_
  have := Finset.mem_range.mp hl
  unfold tri
  rw [e r hr r hr, e r hr l this, e l this l this, e l this c hc]

/-- In particular the return value decides the existence of an LR decomposition with non-zero pivots, and the factors are
unique. -/
theorem C41_unique {n : Nat} {F G : Nat → Nat → K} (hF : ∀ i < n, F i i ≠ 0)
    (h : ∀ r < n, ∀ c < n, ∑ l ∈ Finset.range n, tri true true F r l * tri false false F l c =
      ∑ l ∈ Finset.range n, tri true true G r l * tri false false G l c) :
    ∀ r < n, ∀ c < n, F r c = G r c := lr_unique hF h

/-- `lrdecomp_amatrix` followed by `lrsolve_amatrix_avector` solves `A x = b`, or `A^* x = b` if `trans` is set, for the
original matrix `A`. -/
theorem C41_lrsolve_vec {a : Mat} {x : Vec} {m : Mem K} (ha : a.Valid m) (hx : x.Valid m) (hd : Disj a.Cell x.Cell)
    (hsq : a.rows = a.cols) (h0 : 0 < a.rows) (hlt : a.rows < 2 ^ 32) (hr : a.rows ≤ x.dim) (trans : Bool)
    (hm : ∀ k ≤ a.rows, minor (a.val m) k ≠ 0) :
    Tot (lrdecomp a m >>= fun st => lrsolveVec trans a x st.2) fun m' => x.Valid m' ∧
      (∀ i < a.rows, ∑ j ∈ Finset.range a.rows, op trans (a.val m) i j * x.val m' j = x.val m i) ∧
      (∀ i, a.rows ≤ i → i < x.dim → x.val m' i = x.val m i) ∧ ∀ c, ¬ a.Cell c → ¬ x.Cell c → m' c = m c := by
  refine Tot.bind (C41_lrdecomp ha hsq h0 hlt) ?_
  rintro ⟨p, m1⟩ - ⟨h1, h2, h3, h4⟩
  have hp : p = 0 := by
    rcases h3 with h3 | h3
    · exact h3.1
    · exact absurd h3.2.2.1 (hm p h3.2.1)
  obtain ⟨h5, h6⟩ := h4 hp
  have hdx : Disj x.Cell a.Cell := fun c h h' => hd c h' h
  have hx1 : x.Valid m1 := fun i hi => by rw [h2 _ (hdx _ (Vec.cell_addr hi))]; exact hx i hi
  have ex : ∀ i < x.dim, x.val m1 i = x.val m i := fun i hi => by
    unfold Vec.val; rw [h2 _ (hdx _ (Vec.cell_addr hi))]
  have fin : ∀ {m' : Mem K} {X : Nat → K}, VecBecomes x m1 X m' ∧
      (∀ i < a.rows, ∑ j ∈ Finset.range a.rows, op trans (a.val m) i j * X j = x.val m1 i) ∧
      (∀ i, a.rows ≤ i → i < x.dim → X i = x.val m1 i) → x.Valid m' ∧
      (∀ i < a.rows, ∑ j ∈ Finset.range a.rows, op trans (a.val m) i j * x.val m' j = x.val m i) ∧
      (∀ i, a.rows ≤ i → i < x.dim → x.val m' i = x.val m i) ∧ ∀ c, ¬ a.Cell c → ¬ x.Cell c → m' c = m c := by
    rintro m' X ⟨b1, b2, b3⟩
    refine ⟨b1.1, fun i hi => ?_, fun i hi hid => by rw [b1.2.1 i hid, b3 i hi hid, ex i hid],
      fun c hc hc' => by rw [b1.2.2 c hc', h2 c hc]⟩
    rw [← ex i (by omega), ← b2 i hi]
    exact Finset.sum_congr rfl fun j hj => by rw [b1.2.1 j (by have := Finset.mem_range.mp hj; omega)]
  unfold lrsolveVec
  cases trans <;> simp only [Bool.false_eq_true, if_false, if_true]
  · refine (solve2_tot h1 hx1 hd hsq hr true true false false false false (fun _ => h5) (M := op false (a.val m))
      fun r hr c hc => by rw [op_mul false hr hc h6]; rfl).mono ?_
    rintro m' ⟨X, h⟩
    exact fin h
  · refine (solve2_tot h1 hx1 hd hsq hr false false true true true true (fun _ => h5) (M := op true (a.val m))
      fun r hr c hc => by rw [op_mul true hr hc h6]; rfl).mono ?_
    rintro m' ⟨X, h⟩
    exact fin h

/-- `lrdecomp_amatrix` followed by `lrsolve_amatrix` solves `A X = B`. -/
theorem C41_lrsolve_mat {a x : Mat} {m : Mem K} (ha : a.Valid m) (hx : x.Valid m) (hd : Disj a.Cell x.Cell)
    (hsq : a.rows = a.cols) (h0 : 0 < a.rows) (hlt : a.rows < 2 ^ 32) (hr : a.rows ≤ x.rows)
    (hm : ∀ k ≤ a.rows, minor (a.val m) k ≠ 0) :
    Tot (lrdecomp a m >>= fun st => lrsolve a x st.2) fun m' => x.Valid m' ∧
      (∀ i < a.rows, ∀ q < x.cols, ∑ j ∈ Finset.range a.rows, a.val m i j * x.val m' j q = x.val m i q) ∧
      ∀ i, a.rows ≤ i → i < x.rows → ∀ q < x.cols, x.val m' i q = x.val m i q := by
  refine Tot.bind (C41_lrdecomp ha hsq h0 hlt) ?_
  rintro ⟨p, m1⟩ - ⟨h1, h2, h3, h4⟩
  have hp : p = 0 := by
    rcases h3 with h3 | h3
    · exact h3.1
    · exact absurd h3.2.2.1 (hm p h3.2.1)
  obtain ⟨h5, h6⟩ := h4 hp
  have hdx : Disj x.Cell a.Cell := fun c h h' => hd c h' h
  have hx1 : x.Valid m1 := ⟨hx.1, fun i hi j hj => by rw [h2 _ (hdx _ (Mat.cell_addr hi hj))]; exact hx.2 i hi j hj⟩
  have ex : ∀ i < x.rows, ∀ j < x.cols, x.val m1 i j = x.val m i j := fun i hi j hj => by
    unfold Mat.val; rw [h2 _ (hdx _ (Mat.cell_addr hi hj))]
  refine (solve2mat_tot h1 hx1 hd hsq hr true true false false false false (fun _ => h5) (M := a.val m)
      fun r hr c hc => (h6 r hr c hc).symm).mono ?_
  rintro m' ⟨X, b1, b2, b3⟩
  refine ⟨b1.1, fun i hi q hq => ?_, fun i hi hid q hq => by rw [b1.2.1 i hid q hq, b3 i hi hid q hq, ex i hid q hq]⟩
  rw [← ex i (by omega) q hq, ← b2 i hi q hq]
  exact Finset.sum_congr rfl fun j hj => by rw [b1.2.1 j (by have := Finset.mem_range.mp hj; omega) q hq]

/-- `lrdecomp_amatrix` followed by `lreval_amatrix_avector` multiplies by the original matrix or its adjoint. -/
theorem C41_lreval_vec {a : Mat} {x : Vec} {m : Mem K} (ha : a.Valid m) (hx : x.Valid m) (hd : Disj a.Cell x.Cell)
    (hsq : a.rows = a.cols) (h0 : 0 < a.rows) (hlt : a.rows < 2 ^ 32) (hr : a.rows ≤ x.dim) (trans : Bool)
    (hm : ∀ k ≤ a.rows, minor (a.val m) k ≠ 0) :
    Tot (lrdecomp a m >>= fun st => lrevalVec trans a x st.2) fun m' => x.Valid m' ∧
      ∀ i < x.dim, x.val m' i = if i < a.rows then ∑ j ∈ Finset.range a.rows, op trans (a.val m) i j * x.val m j
        else x.val m i := by
  refine Tot.bind (C41_lrdecomp ha hsq h0 hlt) ?_
  rintro ⟨p, m1⟩ - ⟨h1, h2, h3, h4⟩
  have hp : p = 0 := by
    rcases h3 with h3 | h3
    · exact h3.1
    · exact absurd h3.2.2.1 (hm p h3.2.1)
  obtain ⟨h5, h6⟩ := h4 hp
  have hdx : Disj x.Cell a.Cell := fun c h h' => hd c h' h
  have hx1 : x.Valid m1 := fun i hi => by rw [h2 _ (hdx _ (Vec.cell_addr hi))]; exact hx i hi
  have ex : ∀ i < x.dim, x.val m1 i = x.val m i := fun i hi => by
    unfold Vec.val; rw [h2 _ (hdx _ (Vec.cell_addr hi))]
  have fin : ∀ {m' : Mem K}, VecBecomes x m1 (fun i => if i < a.rows then ∑ j ∈ Finset.range a.rows,
      op trans (a.val m) i j * x.val m1 j else x.val m1 i) m' → x.Valid m' ∧
      ∀ i < x.dim, x.val m' i = if i < a.rows then ∑ j ∈ Finset.range a.rows, op trans (a.val m) i j * x.val m j
        else x.val m i := by
    intro m' b
    refine ⟨b.1, fun i hi => ?_⟩
    rw [b.2.1 i hi]
    simp only
    by_cases e : i < a.rows
    · rw [if_pos e, if_pos e]
      exact Finset.sum_congr rfl fun j hj => by rw [ex j (by have := Finset.mem_range.mp hj; omega)]
    · rw [if_neg e, if_neg e, ex i hi]
  unfold lrevalVec
  cases trans <;> simp only [Bool.false_eq_true, if_false, if_true]
  · exact (eval2_tot h1 hx1 hd hsq hr false false false true true false (M := op false (a.val m))
      fun r hr c hc => by rw [op_mul false hr hc h6]; rfl).mono fun m' h => fin h
  · exact (eval2_tot h1 hx1 hd hsq hr true true true false false true (M := op true (a.val m))
      fun r hr c hc => by rw [op_mul true hr hc h6]; rfl).mono fun m' h => fin h

/-- The empty matrix is not supported: `lrdecomp_amatrix` reads an entry of it. -/
theorem C41_empty {a : Mat} {m : Mem K} (hr : a.rows = 0) (hc : a.cols = 0) (hm : m (a.addr 0 0) = none) :
    lrdecomp a m = .error .ub := by
  unfold lrdecomp
  rw [hr, hc, cassert_true (by decide), ok_bind]
  rw [show (0 + (2 ^ 32 - 1)) % 2 ^ 32 = (2 ^ 32 - 2) + 1 by norm_num]
  unfold lrLoop
  have : m.read (a.addr 0 0) = .error .ub := by unfold Mem.read; rw [hm]
  rw [this]
  rfl

/-! ## C42 -/

/-- `lrdecomp_blocks_amatrix` never fails on a non-empty square matrix and a positive block size (as long as the products
`n * k` do not overflow an `uint`).  It returns the same number as `lrdecomp_amatrix`; if this is zero, it leaves the same
factors in `a`.  Nothing but `a` is modified. -/
theorem C42_blocks {a : Mat} {m : Mem K} (ha : a.Valid m) (hsq : a.rows = a.cols) (h0 : 0 < a.rows) (blocksize : Nat)
    (hb : 0 < blocksize) (hlt : a.rows < 2 ^ 32) (hw : a.rows * (a.rows / blocksize) < 2 ^ 32) :
    Tot (lrdecompBlocks a blocksize m) fun (p, m') => a.Valid m' ∧ Frame a.Cell m m' ∧
      ∀ q m'', lrdecomp a m = .ok (q, m'') → p = q ∧ (p = 0 → m' = m'') := by
  refine (lrdecompBlocks_tot ha hsq h0 blocksize hb hlt hw).mono ?_
  rintro ⟨p, m'⟩ ⟨F, h1, h2, h3⟩
  refine ⟨h1.1, h1.2.2, fun q m'' hq => ?_⟩
  obtain ⟨st, hst, G, g1, g2⟩ := lrdecomp_tot ha hsq h0 hlt
  obtain rfl : st = (q, m'') := Except.ok.inj (hst.symm.trans hq)
  have hpq : p = q := firstZeroMinor_unique h3 (lrPost_minor g2)
  refine ⟨hpq, fun hp => ?_⟩
  obtain ⟨f1, f2⟩ := lrPost_zero (A := a.val m) (F := F) (n := a.rows) (.inl ⟨rfl, h2 hp⟩)
  obtain ⟨f3, f4⟩ := lrPost_zero (by rw [← hp, hpq]; exact g2)
  have hFG := lr_unique f1 (fun r hr c hc => (f2 r hr c hc).trans (f4 r hr c hc).symm)
  funext c
  by_cases hc : a.Cell c
  · obtain ⟨i, hi, j, hj, rfl⟩ := hc
    exact becomes_cell_eq h1 g1 hi hj (hFG i hi j (by omega))
  · exact (h1.2.2 c hc).trans (g1.2.2 c hc).symm

/-- `lrdecomp_tasks_amatrix`: if the block size is positive and different from the size of the matrix, and if
`lrdecomp_amatrix` succeeds, then every schedule of the memory accesses of the tasks terminates without failure and leaves
the same factors in `a` as `lrdecomp_amatrix`, and there is a schedule. -/
theorem C42_tasks {a : Mat} {m m'' : Mem K} (ha : a.Valid m) (hsq : a.rows = a.cols) (h0 : 0 < a.rows) (blocksize : Nat)
    (hb : 0 < blocksize) (hne : blocksize ≠ a.rows) (hlt : a.rows < 2 ^ 32) (hw : a.rows * (a.rows / blocksize) < 2 ^ 32)
    (hok : lrdecomp a m = .ok (0, m'')) :
    (∃ r, lrdecompTasks a blocksize m r) ∧ ∀ r, lrdecompTasks a blocksize m r → r = .ok m'' := by
  refine ⟨lrTasks_exists a blocksize m, fun r hr => ?_⟩
  by_cases hsmall : a.rows < blocksize
  · obtain ⟨m', h1, p, h2⟩ := lrTasks_small ha hsq h0 blocksize hlt hsmall r hr
    rw [h1, (Prod.mk.inj (Except.ok.inj (h2.symm.trans hok))).2]
  · obtain ⟨st, hst, G, g1, g2⟩ := lrdecomp_tot ha hsq h0 hlt
    obtain rfl : st = (0, m'') := Except.ok.inj (hst.symm.trans hok)
    have hm : ∀ k ≤ a.rows, minor (a.val m) k ≠ 0 := by
      rcases lrPost_minor g2 with h | h
      · exact h.2
      · exact absurd h.1 (by simp only; omega)
    obtain ⟨m', h1, F, h2, h3⟩ := lrTasks_large ha hsq blocksize hb hlt hw (by omega) hm r hr
    obtain ⟨f1, f2⟩ := lrPost_zero (A := a.val m) (F := F) (n := a.rows) (.inl ⟨rfl, h3⟩)
    obtain ⟨f3, f4⟩ := lrPost_zero g2
    have hFG := lr_unique f1 (fun r hr c hc => (f2 r hr c hc).trans (f4 r hr c hc).symm)
    rw [h1]
    congr 1
    funext c
    by_cases hc : a.Cell c
    · obtain ⟨i, hi, j, hj, rfl⟩ := hc
      exact becomes_cell_eq h2 g1 hi hj (hFG i hi j (by omega))
    · exact (h2.2.2 c hc).trans (g1.2.2 c hc).symm

/-- There is no infinite schedule of any pool of tasks. -/
theorem C42_tasks_terminate (ps : List (Prog K)) (m : Mem K) :
    _root_.Acc (fun s' s : List (Prog K) × Mem K => PoolStep s s') (ps, m) := poolStep_terminates ps m

/-- If the block size is the size of the matrix, `lrdecomp_tasks_amatrix` lacks a `return` and factorizes the factors a second
time. -/
theorem C42_tasks_twice {a : Mat} {m : Mem K} (ha : a.Valid m) (hsq : a.rows = a.cols) (h0 : 0 < a.rows) (hlt : a.rows < 2 ^ 32)
    (r : R (Mem K)) (hr : lrdecompTasks a a.rows m r) :
    ∃ p q m1 m2, r = .ok m2 ∧ lrdecomp a m = .ok (p, m1) ∧ lrdecomp a m1 = .ok (q, m2) := by
  obtain ⟨m2, h1, p, q, m1, h2, h3⟩ := lrTasks_equal ha hsq h0 hlt r hr
  exact ⟨p, q, m1, m2, h1, h2, h3⟩

/-- the matrix `((1, 1), (1, 2))` -/
def exMem42 : Mem ℚ := fun c => if c < 4 then some ([1, 1, 1, 2].getD c 0) else none

/-- So the exclusion of this block size in `C42_tasks` is necessary: for the matrix `((1, 1), (1, 2))` and block size 2 no
schedule gives the factors. -/
theorem C42_tasks_defect : ∃ (a : Mat) (m m'' : Mem ℚ), a.Valid m ∧ a.rows = 2 ∧ a.cols = 2 ∧ lrdecomp a m = .ok (0, m'') ∧
    ¬ lrdecompTasks a 2 m (.ok m'') := by
  have ha : (Mat.mk 0 2 2 2).Valid exMem42 := by
    refine ⟨by decide, fun i hi j hj => ?_⟩
    simp only at hi hj
    have : (Mat.mk 0 2 2 2).addr i j < 4 := by simp only [Mat.addr]; omega
    simp only [exMem42, if_pos this]; rfl
  obtain ⟨⟨p, m1⟩, h1, F, h2, h3⟩ := lrdecomp_tot ha rfl (by decide) (by decide)
  simp only at h2 h3
  have hp : p = 0 := by
    rcases lrPost_minor h3 with h | h
    · exact h.1
    · exfalso
      have h4 := h.2.2.1
      have h5 := h.2.1
      have h6 := h.1
      interval_cases p
      · simp [minor, Mat.val, Mat.addr, exMem42] at h4
      · simp only [minor] at h4
        rw [Matrix.det_fin_two] at h4
        simp [Mat.val, Mat.addr, exMem42] at h4
        norm_num at h4
  subst hp
  obtain ⟨f1, f2⟩ := lrPost_zero h3
  have e00 := f2 0 (by decide) 0 (by decide)
  have e01 := f2 0 (by decide) 1 (by decide)
  have e10 := f2 1 (by decide) 0 (by decide)
  have e11 := f2 1 (by decide) 1 (by decide)
  simp [Finset.sum_range_succ, tri, Mat.val, Mat.addr, exMem42] at e00 e01 e10 e11
  rw [e00, mul_one] at e10
  rw [e10, e01] at e11
  have e11' : F 1 1 = 1 := by linarith
  refine ⟨Mat.mk 0 2 2 2, exMem42, m1, ha, rfl, rfl, h1, fun hr => ?_⟩
  obtain ⟨p, q, m1', m2, g1, g2, g3⟩ := C42_tasks_twice ha rfl (by decide) (by decide) _ hr
  have em : m1' = m1 := (Prod.mk.inj (Except.ok.inj (g2.symm.trans h1))).2
  have em2 : m2 = m1 := (Except.ok.inj g1).symm
  subst em
  obtain ⟨st, b1, G, b2, b3⟩ := lrdecomp_tot h2.1 rfl (by decide) (by decide)
  obtain rfl : st = (q, m2) := Except.ok.inj (b1.symm.trans g3)
  simp only at b2 b3
  have v : ∀ i < 2, ∀ j < 2, (Mat.mk 0 2 2 2).val m1' i j = F i j := fun i hi j hj => h2.2.1 i hi j hj
  have hz : minor ((Mat.mk 0 2 2 2).val m1') 2 = 0 := by
    simp only [minor]
    rw [Matrix.det_fin_two]
    simp [v, e00, e01, e10, e11']
  have hG : G 1 1 = 0 := by
    have hq : q = 2 := by
      rcases lrPost_minor b3 with h | h
      · exact absurd hz (h.2 2 le_rfl)
      · have h4 := h.2.2.1
        have h5 := h.2.1
        have h6 := h.1
        interval_cases q
        · simp [minor, v, e00] at h4
        · rfl
    subst hq
    rcases b3 with h | h
    · exact absurd h.1 (by decide)
    · exact h.2.2.2
  have w1 := b2.2.1 1 (by decide) 1 (by decide)
  rw [em2, v 1 (by decide) 1 (by decide), e11', hG] at w1
  exact one_ne_zero w1

/-- A block size of zero leads to a division by zero. -/
theorem C42_blocksize_zero {a : Mat} {m : Mem K} (hsq : a.rows = a.cols) (h0 : 0 < a.rows) :
    lrdecompBlocks a 0 m = .error .ub := by
  unfold lrdecompBlocks
  rw [cassert_true (by simpa using hsq), ok_bind, if_neg (by omega), if_pos rfl]
  rfl

/-! ### the hypotheses can be met -/

/-- a `2 × 2` matrix with leading dimension 3, a vector of dimension 2 -/
def exMem41 : Mem ℚ := fun c => if c < 6 then some ([2, 1, 0, 4, 5, 0].getD c 0) else if c < 9 then some 1 else none

example : let a : Mat := ⟨0, 3, 2, 2⟩; let x : Vec := ⟨6, 3⟩
    a.Valid exMem41 ∧ x.Valid exMem41 ∧ Disj a.Cell x.Cell ∧ (∀ j < a.rows, a.val exMem41 j j ≠ 0) ∧
      ∀ k ≤ a.rows, minor (a.val exMem41) k ≠ 0 := by
  refine ⟨⟨by decide, fun i hi j hj => ?_⟩, fun i hi => ?_, ?_, fun j hj => ?_, fun k hk => ?_⟩
  · simp only at hi hj
    have : (Mat.mk 0 3 2 2).addr i j < 6 := by simp only [Mat.addr]; omega
    simp only [exMem41, if_pos this]; rfl
  · simp only at hi
    have h1 : ¬ (Vec.mk 6 3).addr i < 6 := by simp only [Vec.addr]; omega
    have h2 : (Vec.mk 6 3).addr i < 9 := by simp only [Vec.addr]; omega
    simp only [exMem41, if_neg h1, if_pos h2]; rfl
  · rintro c ⟨i, hi, j, hj, rfl⟩ ⟨k, hk, e⟩
    simp only [Mat.addr, Vec.addr] at *
    omega
  · simp only at hj
    interval_cases j <;> simp [Mat.val, Mat.addr, exMem41]
  · simp only at hk
    interval_cases k
    · simp [minor]
    · simp [minor, Mat.val, Mat.addr, exMem41]
    · simp only [minor]
      rw [Matrix.det_fin_two]
      simp [Mat.val, Mat.addr, exMem41]
      norm_num

/-- the hypotheses of `C42_blocks` and `C42_tasks` with two blocks -/
example : ∃ (a : Mat) (m m'' : Mem ℚ), a.Valid m ∧ a.rows = a.cols ∧ 0 < a.rows ∧ 1 ≠ a.rows ∧ a.rows < 2 ^ 32 ∧
    a.rows * (a.rows / 1) < 2 ^ 32 ∧ lrdecomp a m = .ok (0, m'') := by
  obtain ⟨a, m, m'', h1, h2, h3, h4, _⟩ := C42_tasks_defect
  exact ⟨a, m, m'', h1, by omega, by omega, by omega, by omega, by rw [h2]; decide, h4⟩

/-- a singular matrix: the second minor vanishes -/
example : FirstZeroMinor (fun i j => ([[1, 2], [2, 4]] : List (List ℚ))[i]!.getD j 0) 2 2 := by
  refine .inr ⟨by decide, le_rfl, ?_, fun k hk => ?_⟩
  · simp only [minor]
    rw [Matrix.det_fin_two]
    simp
    norm_num
  · interval_cases k
    · simp [minor]
    · simp [minor]

end H2.Props
