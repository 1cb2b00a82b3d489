import Verif.Proof.FactorChol
import Verif.Proof.FactorDiag
import Mathlib.Analysis.Real.Sqrt
import Mathlib.Tactic.IntervalCases

/-!
# C44: Cholesky and LDL^T decompositions

`herm A` is the self-adjoint matrix that has the lower triangle of `A`, `FirstNotPD` describes the first leading block that
is not positive definite (Spec/FactorChol.lean).
-/

set_option linter.unusedSectionVars false

namespace H2.Props
open Spec Dense
variable {𝕜 : Type} [RCLike 𝕜]

theorem tri_congr {A B : Nat → Nat → 𝕜} {n : Nat} (e : ∀ i < n, ∀ j < n, A i j = B i j) (lower unit : Bool) {r c : Nat}
    (hr : r < n) (hc : c < n) : tri lower unit A r c = tri lower unit B r c := by
  unfold tri; rw [e r hr r hr, e r hr c hc]

/-- `choldecomp_amatrix` never fails on a non-empty square matrix with real diagonal elements.  It refers only to the lower
triangle and does not change anything else.  It returns zero iff the self-adjoint matrix with this lower triangle is positive
definite, and the order of the first leading block that is not positive definite otherwise.  If it returns zero, the
diagonal of the factor `L` left in the lower triangle is real and positive, and `L L^*` is the original matrix. -/
theorem C44_choldecomp {a : Mat} {m : Mem 𝕜} (ha : a.Valid m) (hsq : a.rows = a.cols) (h0 : 0 < a.rows) (hlt : a.rows < 2 ^ 32)
    (hreal : ∀ r < a.rows, star (a.val m r r) = a.val m r r) :
    Tot (choldecomp a m) fun (p, m') => a.Valid m' ∧ Frame a.Cell m m' ∧ (∀ r c, r < c → c < a.rows → a.val m' r c = a.val m r c) ∧
      FirstNotPD (herm (a.val m)) a.rows p ∧
      (p = 0 → (∀ i < a.rows, star (a.val m' i i) = a.val m' i i ∧ 0 < RCLike.re (a.val m' i i)) ∧
        ∀ r < a.rows, ∀ c < a.rows, ∑ l ∈ Finset.range a.rows,
          tri true false (a.val m') r l * star (tri true false (a.val m') c l) = herm (a.val m) r c) := by
  refine (choldecomp_tot ha hsq h0 hlt hreal).mono ?_
  rintro ⟨p, m'⟩ ⟨F, h1, h2, h3⟩
  have e : ∀ i < a.rows, ∀ j < a.rows, a.val m' i j = F i j := fun i hi j hj => h1.2.1 i hi j (by omega)
  refine ⟨h1.1, h1.2.2, fun r c hrc hc => by rw [e r (by omega) c hc]; exact h3 r c hrc, cholPost_pd h2, fun hp => ?_⟩
  obtain ⟨b1, ⟨b2, b3, b4⟩ | b⟩ := h2
  · refine ⟨fun i hi => by rw [e i hi i hi]; exact ⟨b1 i hi, b3 i hi⟩, fun r hr c hc => ?_⟩
    have ne : ∀ j < a.rows, F j j ≠ 0 := fun j hj h => by
      have := b3 j hj
      rw [h, map_zero] at this
      exact lt_irrefl _ this
    rw [← chol_product b4 ne le_rfl le_rfl hr hc b1]
    refine Finset.sum_congr rfl fun l hl => ?_
    have := Finset.mem_range.mp hl
    rw [tri_congr e true false hr this, tri_congr e true false hc this]
  · exact absurd hp (by have := b.1; simp only at this; omega)

/-- `ldltdecomp_amatrix` never fails on a non-empty square matrix with real diagonal elements.  It refers only to the lower
triangle and does not change anything else.  It returns zero iff all leading principal minors of the self-adjoint matrix
with this lower triangle are non-zero, and the order of the first vanishing one otherwise.  If it returns zero, the diagonal
`D` is real and non-zero, and `L D L^*` with the unit lower triangular `L` is the original matrix. -/
theorem C44_ldltdecomp {a : Mat} {m : Mem 𝕜} (ha : a.Valid m) (hsq : a.rows = a.cols) (h0 : 0 < a.rows) (hlt : a.rows < 2 ^ 32)
    (hreal : ∀ r < a.rows, star (a.val m r r) = a.val m r r) :
    Tot (ldltdecomp a m) fun (p, m') => a.Valid m' ∧ Frame a.Cell m m' ∧ (∀ r c, r < c → c < a.rows → a.val m' r c = a.val m r c) ∧
      FirstZeroMinor (herm (a.val m)) a.rows p ∧
      (p = 0 → (∀ i < a.rows, star (a.val m' i i) = a.val m' i i ∧ a.val m' i i ≠ 0) ∧
        ∀ r < a.rows, ∀ c < a.rows, ∑ l ∈ Finset.range a.rows,
          tri true true (a.val m') r l * a.val m' l l * star (tri true true (a.val m') c l) = herm (a.val m) r c) := by
  refine (ldltdecomp_tot ha hsq h0 hlt hreal).mono ?_
  rintro ⟨p, m'⟩ ⟨F, h1, h2, h3⟩
  have e : ∀ i < a.rows, ∀ j < a.rows, a.val m' i j = F i j := fun i hi j hj => h1.2.1 i hi j (by omega)
  refine ⟨h1.1, h1.2.2, fun r c hrc hc => by rw [e r (by omega) c hc]; exact h3 r c hrc, lrPost_minor h2.2, fun hp => ?_⟩
  obtain ⟨b1, b2⟩ := ldltPost_zero (hp ▸ h2)
  refine ⟨fun i hi => by rw [e i hi i hi]; exact ⟨h2.1 i hi, b1 i hi⟩, fun r hr c hc => ?_⟩
  rw [← b2 r hr c hc]
  refine Finset.sum_congr rfl fun l hl => ?_
  have := Finset.mem_range.mp hl
  rw [tri_congr e true true hr this, tri_congr e true true hc this, e l this l this]

theorem firstNotPD_zero {A : Nat → Nat → 𝕜} {n p : Nat} (h : FirstNotPD A n p) (hm : ∀ k ≤ n, PD A k) : p = 0 := by
  rcases h with h | h
  · exact h.1
  · exact absurd (hm p h.2.1) h.2.2.1

theorem firstZeroMinor_zero {A : Nat → Nat → 𝕜} {n p : Nat} (h : FirstZeroMinor A n p) (hm : ∀ k ≤ n, minor A k ≠ 0) : p = 0 := by
  rcases h with h | h
  · exact h.1
  · exact absurd h.2.2.1 (hm p h.2.1)

open scoped ComplexOrder in
/-- the leading blocks of a positive definite matrix are positive definite -/
theorem pd_leading {A : Nat → Nat → 𝕜} {n k : Nat} (h : PD A n) (hk : k ≤ n) : PD A k := by
  unfold PD at h ⊢
  exact h.submatrix (e := Fin.castLE hk) (Fin.castLE_injective hk)

theorem vec_unchanged {x : Vec} {m m1 : Mem 𝕜} {S : Nat → Prop} (hx : x.Valid m) (h : Frame S m m1) (hd : Disj x.Cell S) :
    x.Valid m1 ∧ ∀ i < x.dim, x.val m1 i = x.val m i :=
  ⟨fun i hi => by rw [h _ (hd _ (Vec.cell_addr hi))]; exact hx i hi, fun i hi => by
    unfold Vec.val; rw [h _ (hd _ (Vec.cell_addr hi))]⟩

theorem mat_unchanged {x : Mat} {m m1 : Mem 𝕜} {S : Nat → Prop} (hx : x.Valid m) (h : Frame S m m1) (hd : Disj x.Cell S) :
    x.Valid m1 ∧ ∀ i < x.rows, ∀ j < x.cols, x.val m1 i j = x.val m i j :=
  ⟨⟨hx.1, fun i hi j hj => by rw [h _ (hd _ (Mat.cell_addr hi hj))]; exact hx.2 i hi j hj⟩, fun i hi j hj => by
    unfold Mat.val; rw [h _ (hd _ (Mat.cell_addr hi hj))]⟩

/-- `choldecomp_amatrix` followed by `cholsolve_amatrix_avector` solves `A x = b` for a positive definite `A`. -/
theorem C44_cholsolve_vec {a : Mat} {x : Vec} {m : Mem 𝕜} (ha : a.Valid m) (hx : x.Valid m) (hd : Disj a.Cell x.Cell)
    (hsq : a.rows = a.cols) (h0 : 0 < a.rows) (hlt : a.rows < 2 ^ 32) (hr : a.rows ≤ x.dim)
    (hreal : ∀ r < a.rows, star (a.val m r r) = a.val m r r) (hpd : PD (herm (a.val m)) a.rows) :
    Tot (choldecomp a m >>= fun st => cholsolveVec a x st.2) fun m' => x.Valid m' ∧
      (∀ i < a.rows, ∑ j ∈ Finset.range a.rows, herm (a.val m) i j * x.val m' j = x.val m i) ∧
      (∀ i, a.rows ≤ i → i < x.dim → x.val m' i = x.val m i) ∧ ∀ c, ¬ a.Cell c → ¬ x.Cell c → m' c = m c := by
  refine Tot.bind (C44_choldecomp ha hsq h0 hlt hreal) ?_
  rintro ⟨p, m1⟩ - ⟨h1, h2, -, h3, h4⟩
  obtain ⟨h5, h6⟩ := h4 (firstNotPD_zero h3 fun k hk => pd_leading hpd hk)
  obtain ⟨hx1, ex⟩ := vec_unchanged hx h2 (fun c h h' => hd c h' h)
  have ne : ∀ j < a.rows, a.val m1 j j ≠ 0 := fun j hj h => by
    have := (h5 j hj).2
    rw [h, map_zero] at this
    exact lt_irrefl _ this
  refine (solve2_tot h1 hx1 hd hsq hr true false false true false true (fun _ => ne) (M := herm (a.val m))
    fun r hr c hc => (h6 r hr c hc).symm).mono ?_
  rintro m' ⟨X, b1, b2, b3⟩
  refine ⟨b1.1, fun i hi => ?_, fun i hi hid => by rw [b1.2.1 i hid, b3 i hi hid, ex i hid],
    fun c hc hc' => by rw [b1.2.2 c hc', h2 c hc]⟩
  rw [← ex i (by omega), ← b2 i hi]
  exact Finset.sum_congr rfl fun j hj => by rw [b1.2.1 j (by have := Finset.mem_range.mp hj; omega)]

/-- `choldecomp_amatrix` followed by `cholsolve_amatrix` solves `A X = B` for a positive definite `A`. -/
theorem C44_cholsolve_mat {a x : Mat} {m : Mem 𝕜} (ha : a.Valid m) (hx : x.Valid m) (hd : Disj a.Cell x.Cell)
    (hsq : a.rows = a.cols) (h0 : 0 < a.rows) (hlt : a.rows < 2 ^ 32) (hr : a.rows = x.rows)
    (hreal : ∀ r < a.rows, star (a.val m r r) = a.val m r r) (hpd : PD (herm (a.val m)) a.rows) :
    Tot (choldecomp a m >>= fun st => cholsolve a x st.2) fun m' => x.Valid m' ∧
      (∀ i < a.rows, ∀ q < x.cols, ∑ j ∈ Finset.range a.rows, herm (a.val m) i j * x.val m' j q = x.val m i q) ∧
      ∀ c, ¬ a.Cell c → ¬ x.Cell c → m' c = m c := by
  refine Tot.bind (C44_choldecomp ha hsq h0 hlt hreal) ?_
  rintro ⟨p, m1⟩ - ⟨h1, h2, -, h3, h4⟩
  obtain ⟨h5, h6⟩ := h4 (firstNotPD_zero h3 fun k hk => pd_leading hpd hk)
  obtain ⟨hx1, ex⟩ := mat_unchanged hx h2 (fun c h h' => hd c h' h)
  have ne : ∀ j < a.rows, a.val m1 j j ≠ 0 := fun j hj h => by
    have := (h5 j hj).2
    rw [h, map_zero] at this
    exact lt_irrefl _ this
  unfold cholsolve
  refine Tot.cassert (by simp; omega) ?_
  refine (solve2mat_tot h1 hx1 hd hsq (by omega) true false false true false true (fun _ => ne) (M := herm (a.val m))
    fun r hr c hc => (h6 r hr c hc).symm).mono ?_
  rintro m' ⟨X, b1, b2, b3⟩
  refine ⟨b1.1, fun i hi q hq => ?_, fun c hc hc' => by rw [b1.2.2 c hc', h2 c hc]⟩
  rw [← ex i (by omega) q hq, ← b2 i hi q hq]
  exact Finset.sum_congr rfl fun j hj => by rw [b1.2.1 j (by have := Finset.mem_range.mp hj; omega) q hq]

/-- `choldecomp_amatrix` followed by `choleval_amatrix_avector` multiplies by the original matrix. -/
theorem C44_choleval_vec {a : Mat} {x : Vec} {m : Mem 𝕜} (ha : a.Valid m) (hx : x.Valid m) (hd : Disj a.Cell x.Cell)
    (hsq : a.rows = a.cols) (h0 : 0 < a.rows) (hlt : a.rows < 2 ^ 32) (hr : a.rows ≤ x.dim)
    (hreal : ∀ r < a.rows, star (a.val m r r) = a.val m r r) (hpd : PD (herm (a.val m)) a.rows) :
    Tot (choldecomp a m >>= fun st => cholevalVec a x st.2) fun m' => x.Valid m' ∧
      ∀ i < x.dim, x.val m' i = if i < a.rows then ∑ j ∈ Finset.range a.rows, herm (a.val m) i j * x.val m j else x.val m i := by
  refine Tot.bind (C44_choldecomp ha hsq h0 hlt hreal) ?_
  rintro ⟨p, m1⟩ - ⟨h1, h2, -, h3, h4⟩
  obtain ⟨h5, h6⟩ := h4 (firstNotPD_zero h3 fun k hk => pd_leading hpd hk)
  obtain ⟨hx1, ex⟩ := vec_unchanged hx h2 (fun c h h' => hd c h' h)
  refine (eval2_tot h1 hx1 hd hsq hr true false true true false false (M := herm (a.val m))
    fun r hr c hc => (h6 r hr c hc).symm).mono fun m' b => ⟨b.1, fun i hi => ?_⟩
  rw [b.2.1 i hi]
  simp only
  by_cases e : i < a.rows
  · rw [if_pos e, if_pos e]
    exact Finset.sum_congr rfl fun j hj => by rw [ex j (by have := Finset.mem_range.mp hj; omega)]
  · rw [if_neg e, if_neg e, ex i hi]

/-- `ldltdecomp_amatrix` followed by `ldltsolve_amatrix_avector` solves `A x = b` if all leading minors of `A` are non-zero. -/
theorem C44_ldltsolve_vec {a : Mat} {x : Vec} {m : Mem 𝕜} (ha : a.Valid m) (hx : x.Valid m) (hd : Disj a.Cell x.Cell)
    (hsq : a.rows = a.cols) (h0 : 0 < a.rows) (hlt : a.rows < 2 ^ 32) (hr : a.rows ≤ x.dim)
    (hreal : ∀ r < a.rows, star (a.val m r r) = a.val m r r) (hm : ∀ k ≤ a.rows, minor (herm (a.val m)) k ≠ 0) :
    Tot (ldltdecomp a m >>= fun st => ldltsolveVec a x st.2) fun m' => x.Valid m' ∧
      (∀ i < a.rows, ∑ j ∈ Finset.range a.rows, herm (a.val m) i j * x.val m' j = x.val m i) ∧
      (∀ i, a.rows ≤ i → i < x.dim → x.val m' i = x.val m i) ∧ ∀ c, ¬ a.Cell c → ¬ x.Cell c → m' c = m c := by
  refine Tot.bind (C44_ldltdecomp ha hsq h0 hlt hreal) ?_
  rintro ⟨p, m1⟩ - ⟨h1, h2, -, h3, h4⟩
  obtain ⟨h5, h6⟩ := h4 (firstZeroMinor_zero h3 hm)
  obtain ⟨hx1, ex⟩ := vec_unchanged hx h2 (fun c h h' => hd c h' h)
  have hmin : min a.rows a.cols = a.rows := by omega
  unfold ldltsolveVec
  refine Tot.bind (trisolveVec_tot h1 hx1 hd hr (by omega) true true false (fun h => by simp at h)) ?_
  rintro m2 - ⟨Y, c1, c2, c3⟩
  rw [hmin] at c2 c3
  obtain ⟨ha2, ea2⟩ := mat_unchanged h1 c1.2.2 hd
  refine Tot.bind (diagsolveVec_tot ha2 c1.1 hd (by omega) false) fun m3 _ d1 => ?_
  rw [hmin] at d1
  obtain ⟨ha3, ea3⟩ := mat_unchanged ha2 d1.2.2 hd
  refine (trisolveVec_tot ha3 d1.1 hd hr (by omega) true true true (fun h => by simp at h)).mono ?_
  rintro m4 ⟨X, f1, f2, f3⟩
  rw [hmin] at f2 f3
  have hX : ∀ i, a.rows ≤ i → i < x.dim → X i = x.val m i := fun i hi hid => by
    rw [f3 i hi, d1.2.1 i hid]
    simp only
    rw [if_neg (by omega), c1.2.1 i hid, c3 i hi, ex i hid]
  refine ⟨f1.1, fun i hi => ?_, fun i hi hid => by rw [f1.2.1 i hid, hX i hi hid],
    fun c hc hc' => by rw [f1.2.2 c hc', d1.2.2 c hc', c1.2.2 c hc', h2 c hc]⟩
  have e31 : ∀ i < a.rows, ∀ j < a.rows, a.val m1 i j = a.val m3 i j := fun i hi j hj => by
    rw [ea3 i hi j (by omega), ea2 i hi j (by omega)]
  have ez : ∀ i < x.dim, x.val m3 i = if i < a.rows then x.val m2 i / cj false (a.val m2 i i) else x.val m2 i := d1.2.1
  have key := ldl_system (n := a.rows) (M := herm (a.val m)) (D := fun i => a.val m1 i i) (b := x.val m1) (Y := Y) (Z := x.val m3)
    (X := X) (P := tri true true (a.val m1)) (Q := fun r c => star (tri true true (a.val m1) c r))
    (fun i hi => (h5 i hi).2) (fun r hr c hc => (h6 r hr c hc).symm) c2 (fun i hi => by
      rw [ez i (by omega), if_pos hi, c1.2.1 i (by omega), ea2 i hi i (by omega)]; rfl) (fun i hi => by
      rw [← f2 i hi]
      refine Finset.sum_congr rfl fun j hj => ?_
      have hj := Finset.mem_range.mp hj
      simp only [op, if_true]
      rw [tri_congr e31 true true hj hi])
    i hi
  rw [← ex i (by omega), ← key]
  exact Finset.sum_congr rfl fun j hj => by rw [f1.2.1 j (by have := Finset.mem_range.mp hj; omega)]

/-- `ldltdecomp_amatrix` followed by `ldltsolve_amatrix` solves `A X = B` if all leading minors of `A` are non-zero. -/
theorem C44_ldltsolve_mat {a x : Mat} {m : Mem 𝕜} (ha : a.Valid m) (hx : x.Valid m) (hd : Disj a.Cell x.Cell)
    (hsq : a.rows = a.cols) (h0 : 0 < a.rows) (hlt : a.rows < 2 ^ 32) (hr : a.rows = x.rows)
    (hreal : ∀ r < a.rows, star (a.val m r r) = a.val m r r) (hm : ∀ k ≤ a.rows, minor (herm (a.val m)) k ≠ 0) :
    Tot (ldltdecomp a m >>= fun st => ldltsolve a x st.2) fun m' => x.Valid m' ∧
      (∀ i < a.rows, ∀ q < x.cols, ∑ j ∈ Finset.range a.rows, herm (a.val m) i j * x.val m' j q = x.val m i q) ∧
      ∀ c, ¬ a.Cell c → ¬ x.Cell c → m' c = m c := by
  refine Tot.bind (C44_ldltdecomp ha hsq h0 hlt hreal) ?_
  rintro ⟨p, m1⟩ - ⟨h1, h2, -, h3, h4⟩
  obtain ⟨h5, h6⟩ := h4 (firstZeroMinor_zero h3 hm)
  obtain ⟨hx1, ex⟩ := mat_unchanged hx h2 (fun c h h' => hd c h' h)
  have hmin : min a.rows a.cols = a.rows := by omega
  have hor : min a.rows a.cols ≤ opRows false x := by simp only [opRows]; simp; omega
  unfold ldltsolve
  refine Tot.cassert (by simp; omega) ?_
  refine Tot.bind (trisolve_tot h1 hx1 hd true true false false hor (fun h => by simp at h)) ?_
  rintro m2 - ⟨Y, c1, c2, c3⟩
  rw [hmin] at c2 c3
  obtain ⟨ha2, ea2⟩ := mat_unchanged h1 c1.2.2 hd
  refine Tot.bind (diagsolve_tot ha2 c1.1 hd false false hor) fun m3 _ d1 => ?_
  rw [hmin] at d1
  simp only [Bool.false_eq_true, if_false] at d1
  obtain ⟨ha3, ea3⟩ := mat_unchanged ha2 d1.2.2 hd
  refine (trisolve_tot ha3 d1.1 hd true true true false hor (fun h => by simp at h)).mono ?_
  rintro m4 ⟨X, f1, f2, f3⟩
  rw [hmin] at f2 f3
  refine ⟨f1.1, fun i hi q hq => ?_, fun c hc hc' => by rw [f1.2.2 c hc', d1.2.2 c hc', c1.2.2 c hc', h2 c hc]⟩
  have e31 : ∀ i < a.rows, ∀ j < a.rows, a.val m1 i j = a.val m3 i j := fun i hi j hj => by
    rw [ea3 i hi j (by omega), ea2 i hi j (by omega)]
  have ez : ∀ i < x.rows, ∀ q < x.cols, x.val m3 i q = if i < a.rows then x.val m2 i q / cj false (a.val m2 i i) else
    x.val m2 i q := d1.2.1
  have key := ldl_system (n := a.rows) (M := herm (a.val m)) (D := fun i => a.val m1 i i) (b := fun i => x.val m1 i q)
    (Y := fun i => Y i q) (Z := fun i => x.val m3 i q)
    (X := fun i => X i q) (P := tri true true (a.val m1)) (Q := fun r c => star (tri true true (a.val m1) c r))
    (fun i hi => (h5 i hi).2) (fun r hr c hc => (h6 r hr c hc).symm) (fun i hi => c2 i hi q) (fun i hi => by
      rw [ez i (by omega) q hq, if_pos hi, c1.2.1 i (by omega) q hq, ea2 i hi i (by omega)]; rfl) (fun i hi => by
      have := f2 i hi q
      simp only [op, Bool.false_eq_true, if_false] at this
      rw [← this]
      refine Finset.sum_congr rfl fun j hj => ?_
      have hj := Finset.mem_range.mp hj
      simp only [if_true]
      rw [tri_congr e31 true true hj hi])
    i hi
  rw [← ex i (by omega) q hq, ← key]
  exact Finset.sum_congr rfl fun j hj => by rw [f1.2.1 j (by have := Finset.mem_range.mp hj; omega) q hq]

/-- The empty matrix is not supported: both decompositions read an entry of it. -/
theorem C44_empty {a : Mat} {m : Mem 𝕜} (hr : a.rows = 0) (hc : a.cols = 0) (hm : m (a.addr 0 0) = none) :
    choldecomp a m = .error .ub ∧ ldltdecomp a m = .error .ub := by
  have : m.read (a.addr 0 0) = .error .ub := by unfold Mem.read; rw [hm]
  constructor
  · unfold choldecomp
    rw [hr, hc, cassert_true (by decide), ok_bind]
    rw [show (0 + (2 ^ 32 - 1)) % 2 ^ 32 = (2 ^ 32 - 2) + 1 by norm_num]
    unfold cholLoop
    rw [this]
    rfl
  · unfold ldltdecomp
    rw [hr, hc, cassert_true (by decide), ok_bind]
    rw [show (0 + (2 ^ 32 - 1)) % 2 ^ 32 = (2 ^ 32 - 2) + 1 by norm_num]
    unfold ldltLoop
    rw [this]
    rfl

/-- Solving with and multiplying by the diagonal, for vectors. -/
theorem C43_diag_vec {K : Type} [Field K] [StarRing K] {a : Mat} {x : Vec} {m : Mem K} (ha : a.Valid m) (hx : x.Valid m)
    (hd : Disj a.Cell x.Cell) (hc : a.cols ≤ x.dim) (trans : Bool) :
    Tot (diagsolveVec trans a x m) (VecBecomes x m fun i =>
      if i < min a.rows a.cols then x.val m i / (if trans then star (a.val m i i) else a.val m i i) else x.val m i) ∧
    Tot (diagevalVec trans a x m) (VecBecomes x m fun i =>
      if i < min a.rows a.cols then x.val m i * (if trans then star (a.val m i i) else a.val m i i) else x.val m i) :=
  ⟨diagsolveVec_tot ha hx hd (by omega) trans, diagevalVec_tot ha hx hd hc trans⟩

/-- Solving with the diagonal, for matrices. -/
theorem C43_diag_mat {K : Type} [Field K] [StarRing K] {a x : Mat} {m : Mem K} (ha : a.Valid m) (hx : x.Valid m)
    (hd : Disj a.Cell x.Cell) (trans : Bool) :
    (min a.rows a.cols ≤ x.rows → Tot (diagsolve trans a false x m) (MatBecomes x m fun i j =>
      if i < min a.rows a.cols then x.val m i j / (if trans then star (a.val m i i) else a.val m i i) else x.val m i j)) ∧
    (min a.rows a.cols ≤ x.cols → Tot (diagsolve trans a true x m) (MatBecomes x m fun i j =>
      if j < min a.rows a.cols then x.val m i j / (if trans then star (a.val m j j) else a.val m j j) else x.val m i j)) :=
  ⟨fun h => diagsolve_tot ha hx hd trans false h, fun h => diagsolve_tot ha hx hd trans true h⟩

/-- a 2 × 2 matrix at 0 with lower triangle 4, 2, 5 and garbage above the diagonal, and a vector at 4 -/
noncomputable def exMem44 : Mem ℝ := fun c => if c < 6 then some ([4, 2, 77, 5, 1, 1].getD c 0) else none

open scoped ComplexOrder in
/-- the hypotheses of the theorems above are met -/
example : (Mat.mk 0 2 2 2).Valid exMem44 ∧ (Vec.mk 4 2).Valid exMem44 ∧ Disj (Mat.mk 0 2 2 2).Cell (Vec.mk 4 2).Cell ∧
    (∀ r < 2, star ((Mat.mk 0 2 2 2).val exMem44 r r) = (Mat.mk 0 2 2 2).val exMem44 r r) ∧
    PD (herm ((Mat.mk 0 2 2 2).val exMem44)) 2 ∧ ∀ k ≤ 2, minor (herm ((Mat.mk 0 2 2 2).val exMem44)) k ≠ 0 := by
  have pd : PD (herm ((Mat.mk 0 2 2 2).val exMem44)) 2 := by
    unfold PD
    have e : (Matrix.of fun i j : Fin 2 => herm ((Mat.mk 0 2 2 2).val exMem44) i j) =
        (!![2, 0; 1, 2] : Matrix (Fin 2) (Fin 2) ℝ) * (!![2, 0; 1, 2] : Matrix (Fin 2) (Fin 2) ℝ).conjTranspose := by
      ext i j
      fin_cases i <;> fin_cases j <;> simp [herm, Mat.val, Mat.addr, exMem44, Matrix.mul_apply, Fin.sum_univ_two,
        Matrix.conjTranspose_apply] <;> try norm_num
    rw [e]
    refine Matrix.PosDef.mul_conjTranspose_self _ (Matrix.vecMul_injective_iff_isUnit.mpr ?_)
    rw [Matrix.isUnit_iff_isUnit_det, Matrix.det_fin_two]
    simp
  refine ⟨⟨by decide, fun i hi j hj => ?_⟩, fun i hi => ?_, ?_, fun r hr => by simp, pd, fun k hk => ?_⟩
  · simp only at hi hj
    have : (Mat.mk 0 2 2 2).addr i j < 6 := by simp only [Mat.addr]; omega
    simp only [exMem44, if_pos this]; rfl
  · simp only at hi
    have : (Vec.mk 4 2).addr i < 6 := by simp only [Vec.addr]; omega
    simp only [exMem44, if_pos this]; rfl
  · rintro c ⟨i, hi, j, hj, rfl⟩ ⟨k, hk, h⟩
    simp only [Mat.addr, Vec.addr] at h hi hj hk
    omega
  · exact ne_of_gt (pd_leading pd hk).det_pos

/-- an indefinite matrix is met as well: the result is then not zero -/
example : ¬ PD (herm (fun i j => if i = j then (-1 : ℝ) else 0)) 1 := by
  intro h
  have := h.det_pos
  simp [herm] at this
  linarith

end H2.Props
