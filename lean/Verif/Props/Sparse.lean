import Verif.Proof.Norm2

/-!
# C19–C23, C53: sparse patterns, sparse matrices, norm estimation

`posAfter`, `CSR`, `HasPos`, `entry`, `denseRun` are in `Spec/Sparse.lean`.
-/

namespace H2.Props
open Spec

/-! ## C19 -/

/-- A fresh pattern subjected to any history of in-range additions and clears stores exactly the positions added since
the last clear, each once. -/
theorem C19_pattern_is_set {rows cols : Nat} (hr : 0 < rows) (hc : 0 < cols) (hist : List Pattern.Op)
    (hin : PosInRange rows cols hist) :
    ∃ sp0 sp, Pattern.new rows cols = .ok sp0 ∧ sp0.run hist = .ok sp ∧ sp.rows = rows ∧ sp.cols = cols ∧
      ∀ i < rows, (patCols sp i).Nodup ∧ ∀ j, j ∈ patCols sp i ↔ posAfter (fun _ _ => False) hist i j := by
  obtain ⟨sp0, e0, h0⟩ := Pattern.new_tot hr hc
  obtain ⟨sp, e, h⟩ := Pattern.run_tot hist h0 hin
  exact ⟨sp0, sp, e0, e, h.rows_eq, h.cols_eq, fun i hi => ⟨h.nodup i hi, h.mem i hi⟩⟩

/-- Positions outside the pattern are rejected by an assertion. -/
theorem C19_out_of_range (sp : Pattern) {r c : Nat} (h : ¬ (r < sp.rows ∧ c < sp.cols)) :
    sp.addnz r c = .error .assertFail := by
  unfold Pattern.addnz
  by_cases hr : r < sp.rows
  · have hc : ¬ c < sp.cols := fun hc => h ⟨hr, hc⟩
    simp [cassert, hr, hc, bind, Except.bind]
  · simp [cassert, hr, bind, Except.bind]

example : PosInRange 2 3 [.addnz 0 1, .clear, .addnz 1 2, .addnz 1 2, .addnz 1 1] ∧
    posAfter (fun _ _ => False) [.addnz 0 1, .clear, .addnz 1 2, .addnz 1 2, .addnz 1 1] 1 2 ∧
    ¬ posAfter (fun _ _ => False) [.addnz 0 1, .clear, .addnz 1 2, .addnz 1 2, .addnz 1 1] 0 1 := by
  simp [PosInRange, posAfter]

/-! ## C20 -/

/-- From the pattern left by any history, `new_zero_sparsematrix` makes a well-formed compressed-row matrix whose
positions are those of the pattern, with zero coefficients and diagonal entries first. -/
theorem C20_new_zero {K : Type} [AddCommMonoid K] {rows cols : Nat} (hr : 0 < rows) (hc : 0 < cols)
    (hist : List Pattern.Op) (hin : PosInRange rows cols hist) (junkc : Nat → Nat) (junk : Nat → K) :
    ∃ sp0 sp a, Pattern.new rows cols = .ok sp0 ∧ sp0.run hist = .ok sp ∧
      Sparse.newZero junkc junk sp = .ok a ∧ CSR a ∧ a.rows = rows ∧ a.cols = cols ∧
      (∀ i < rows, ∀ j, HasPos a i j ↔ posAfter (fun _ _ => False) hist i j) ∧
      (∀ k < a.nz, a.coeff.v k = 0) ∧ (∀ i < rows, ∀ j, entry a i j = 0) ∧
      (∀ i < rows, HasPos a i i → a.col.v (a.row.v i) = i) := by
  obtain ⟨sp0, e0, h0⟩ := Pattern.new_tot hr hc
  obtain ⟨sp, e, h⟩ := Pattern.run_tot hist h0 hin
  obtain ⟨a, ea, h1, h2, h3, h4, h5, h6⟩ := Sparse.newZero_tot h junkc junk
  refine ⟨sp0, sp, a, e0, e, ea, h1, h2, h3, h4, h5, fun i hi j => ?_, fun i hi hp => h6 i hi ((h4 i hi i).mp hp)⟩
  unfold entry
  refine Finset.sum_eq_zero fun k hk => ?_
  rw [Finset.mem_Ico] at hk
  have := Sparse.CSR.inRow_lt h1 (by omega) hk
  rw [h5 k this]
  simp

/-- `sort_sparsematrix` leaves the represented matrix unchanged and puts stored diagonal entries first. -/
theorem C20_sort {K : Type} [AddCommMonoid K] {a : Sparse K} (h : CSR a) :
    ∃ b, a.sort = .ok b ∧ CSR b ∧ b.rows = a.rows ∧ b.cols = a.cols ∧
      (∀ i < a.rows, ∀ j, entry b i j = entry a i j ∧ (HasPos b i j ↔ HasPos a i j)) ∧
      (∀ i < a.rows, HasPos b i i → b.col.v (b.row.v i) = i) := by
  obtain ⟨b, e, σ, hσ, rfl, hd⟩ := Sparse.sort_tot h
  refine ⟨_, e, Sparse.sorted_csr h hσ, rfl, rfl, fun i hi j => ⟨Sparse.sorted_entry hσ hi j, Sparse.sorted_hasPos hσ i j⟩,
    fun i hi hp => hd i hi ((Sparse.sorted_hasPos hσ i i).mp hp).2⟩

/-- `new_identity_sparsematrix` represents the (rectangular) identity. -/
theorem C20_identity {K : Type} [NonAssocSemiring K] (junkc : Nat → Nat) (junk : Nat → K) (rows cols : Nat) :
    ∃ a, Sparse.newIdentity junkc junk rows cols = .ok a ∧ CSR a ∧ a.rows = rows ∧ a.cols = cols ∧
      ∀ i < rows, ∀ j < cols, entry a i j = if i = j then 1 else 0 :=
  Sparse.newIdentity_tot junkc junk rows cols

/-! ## C21 -/

/-- Any history of updates of stored positions acts on the represented matrix as on a dense matrix. -/
theorem C21_history {K : Type} [AddCommMonoid K] {a : Sparse K} (h : CSR a) (hist : List (Sparse.Op K))
    (hin : OpsIn (HasPos a) hist) :
    ∃ b, a.run hist = .ok b ∧ CSR b ∧ b.rows = a.rows ∧ b.cols = a.cols ∧
      ∀ i < a.rows, ∀ j, (HasPos b i j ↔ HasPos a i j) ∧ entry b i j = denseRun (entry a) hist i j := by
  obtain ⟨b, e, hs, he⟩ := Sparse.run_tot hist h hin
  exact ⟨b, e, Sparse.SamePattern.csr hs h, hs.rows, hs.cols, fun i hi j => ⟨Sparse.SamePattern.hasPos hs i j, he i hi j⟩⟩

/-- `addentry_sparsematrix` returns the new value of the entry. -/
theorem C21_addentry_value {K : Type} [AddCommMonoid K] {a : Sparse K} (h : CSR a) {r c : Nat} (hp : HasPos a r c)
    (x : K) : ∃ b, a.addentry r c x = .ok (b, entry a r c + x) ∧ entry b r c = entry a r c + x := by
  obtain ⟨⟨b, v⟩, e, _, h2, h3⟩ := Sparse.addentry_tot h hp x
  simp only at h2 h3
  exact ⟨b, by rw [e, h2], by rw [h3 r hp.1 c]; simp⟩

/-- Positions that are not stored are rejected. -/
theorem C21_reject {K : Type} [Add K] {a : Sparse K} (h : CSR a) {r c : Nat} (hp : ¬ HasPos a r c) (x : K) :
    a.addentry r c x = .error .assertFail ∧ a.setentry r c x = .error .assertFail :=
  ⟨(Sparse.reject h hp x).2, (Sparse.reject h hp x).1⟩

/-! ## C22 -/

/-- `y ← y + alpha A x` -/
theorem C22_addeval {K : Type} [Field K] {a : Sparse K} (h : CSR a) (alpha : K) {x y : Arr K} (hx : x.n = a.cols)
    (hy : y.n = a.rows) :
    ∃ y', a.addeval alpha x y = .ok y' ∧ y'.n = y.n ∧
      ∀ i < a.rows, y'.v i = y.v i + alpha * ∑ j ∈ Finset.range a.cols, entry a i j * x.v j :=
  Sparse.addeval_tot h alpha hx hy

/-- `y ← y + alpha A^T x` -/
theorem C22_addevaltrans {K : Type} [Field K] {a : Sparse K} (h : CSR a) (alpha : K) {x y : Arr K}
    (hx : x.n = a.rows) (hy : y.n = a.cols) :
    ∃ y', a.addevaltrans alpha x y = .ok y' ∧ y'.n = y.n ∧
      ∀ j < a.cols, y'.v j = y.v j + alpha * ∑ i ∈ Finset.range a.rows, entry a i j * x.v i :=
  Sparse.addevaltrans_tot h alpha hx hy

/-- `B ← B + alpha A` for a dense matrix with any leading dimension; the padding is untouched. -/
theorem C22_add_amatrix {K : Type} [Field K] {a : Sparse K} (h : CSR a) (alpha : K) {b : Sparse.Dense K}
    (hbr : b.rows = a.rows) (hbc : b.cols = a.cols) (hld : b.rows ≤ b.ld)
    (hn : b.cols = 0 ∨ b.ld * (b.cols - 1) + b.rows ≤ b.a.n) :
    ∃ b', a.addAmatrix alpha false b = .ok b' ∧ b'.rows = b.rows ∧ b'.cols = b.cols ∧ b'.ld = b.ld ∧ b'.a.n = b.a.n ∧
      (∀ i < a.rows, ∀ j < a.cols, b'.a.v (i + j * b.ld) = b.a.v (i + j * b.ld) + alpha * entry a i j) ∧
      (∀ p, (∀ i < b.rows, ∀ j < b.cols, p ≠ i + j * b.ld) → b'.a.v p = b.a.v p) := by
  unfold Sparse.addAmatrix
  by_cases hz : 0 < a.nz
  · rw [if_pos hz]
    simp only [cassert, hbr, hbc, decide_true, if_true, ok_bind]
    obtain ⟨ba, e, h1, h2⟩ := Sparse.addAmatrix_loop h alpha (fun i j => i + j * b.ld) (ba := b.a) (by
      intro i hi j hj
      rcases hn with hn | hn
      · omega
      · exact Sparse.addr_lt (rows := b.rows) (cols := b.cols) (by omega) (by omega) hld hn)
    simp only [Bool.false_eq_true, if_false, e]
    refine ⟨_, rfl, rfl, rfl, rfl, h1, fun i hi j hj => ?_, fun p hp => ?_⟩
    · simp only
      rw [h2, Sparse.addr_entry h (fun i j => i + j * b.ld) ?_ hi hj]
      intro i hi j hj i' hi' j' hj' e
      exact Sparse.addr_inj (rows := b.rows) (by omega) (by omega) hld e
    · simp only
      rw [h2, Sparse.addr_other h (fun i j => i + j * b.ld) fun i hi j hj => Ne.symm (hp i hi j hj)]
      simp
  · rw [if_neg hz]
    exact ⟨b, rfl, rfl, rfl, rfl, rfl, fun i hi j _ => by simp [Sparse.entry_nz_zero h (by omega) hi], fun _ _ => rfl⟩

/-- `B ← B + alpha A^T`. -/
theorem C22_add_amatrix_trans {K : Type} [Field K] {a : Sparse K} (h : CSR a) (alpha : K) {b : Sparse.Dense K}
    (hbr : b.rows = a.cols) (hbc : b.cols = a.rows) (hld : b.rows ≤ b.ld)
    (hn : b.cols = 0 ∨ b.ld * (b.cols - 1) + b.rows ≤ b.a.n) :
    ∃ b', a.addAmatrix alpha true b = .ok b' ∧ b'.rows = b.rows ∧ b'.cols = b.cols ∧ b'.ld = b.ld ∧ b'.a.n = b.a.n ∧
      (∀ i < a.rows, ∀ j < a.cols, b'.a.v (j + i * b.ld) = b.a.v (j + i * b.ld) + alpha * entry a i j) ∧
      (∀ p, (∀ i < b.rows, ∀ j < b.cols, p ≠ i + j * b.ld) → b'.a.v p = b.a.v p) := by
  unfold Sparse.addAmatrix
  by_cases hz : 0 < a.nz
  · rw [if_pos hz]
    simp only [cassert, hbr, hbc, decide_true, if_true, ok_bind]
    obtain ⟨ba, e, h1, h2⟩ := Sparse.addAmatrix_loop h alpha (fun i j => j + i * b.ld) (ba := b.a) (by
      intro i hi j hj
      rcases hn with hn | hn
      · omega
      · exact Sparse.addr_lt (rows := b.rows) (cols := b.cols) (by omega) (by omega) hld hn)
    simp only [e]
    refine ⟨_, rfl, rfl, rfl, rfl, h1, fun i hi j hj => ?_, fun p hp => ?_⟩
    · simp only
      rw [h2, Sparse.addr_entry h (fun i j => j + i * b.ld) ?_ hi hj]
      intro i hi j hj i' hi' j' hj' e
      exact (Sparse.addr_inj (rows := b.rows) (by omega) (by omega) hld e).symm
    · simp only
      rw [h2, Sparse.addr_other h (fun i j => j + i * b.ld) fun i hi j hj => Ne.symm (hp j hj i hi)]
      simp
  · rw [if_neg hz]
    exact ⟨b, rfl, rfl, rfl, rfl, rfl, fun i hi j _ => by simp [Sparse.entry_nz_zero h (by omega) hi], fun _ _ => rfl⟩

/-- a 2 × 3 matrix with three stored entries, the second row being empty at first -/
def exSparse : Sparse ℚ :=
  { rows := 2, cols := 3, nz := 3, row := ⟨3, fun i => if i = 0 then 0 else if i = 1 then 2 else 3⟩,
    col := ⟨3, fun k => if k = 0 then 0 else if k = 1 then 2 else 1⟩, coeff := ⟨3, fun k => k + 1⟩ }

theorem exSparse_csr : CSR exSparse := by
  refine ⟨rfl, rfl, rfl, rfl, ?_, rfl, ?_, ?_⟩
  · intro i hi
    have : i < 2 := hi
    interval_cases i <;> decide
  · intro k hk
    have : k < 3 := hk
    interval_cases k <;> decide
  · intro i hi k l hk hl e
    have : i < 2 := hi
    simp only [InRow, exSparse] at hk hl e
    interval_cases i
    · have : k < 2 := by simpa using hk.2
      have : l < 2 := by simpa using hl.2
      interval_cases k <;> interval_cases l <;> simp_all
    · simp at hk hl
      omega

example : CSR exSparse ∧ HasPos exSparse 0 2 ∧ ¬ HasPos exSparse 1 2 ∧ entry exSparse 0 2 = 2 := by
  refine ⟨exSparse_csr, ⟨by decide, 1, ⟨by decide, by decide⟩, by decide⟩, ?_, ?_⟩
  · rintro ⟨_, k, hk, e⟩
    have : k = 2 := by
      have h1 : 2 ≤ k := hk.1
      have h2 : k < 3 := hk.2
      omega
    subst this
    exact absurd e (by decide)
  · have : entry exSparse 0 (exSparse.col.v 1) = exSparse.coeff.v 1 :=
      Sparse.entry_of_pos exSparse_csr (by decide) ⟨by decide, by decide⟩
    exact this.trans (by norm_num [exSparse])

/-! ## C23 -/

/-- `norm2_sparsematrix` works for square matrices … -/
theorem C23_square_ok {S : Sparse ℝ} (h : CSR S) (hsq : S.rows = S.cols) (rnd junk : Nat → ℝ) :
    ∃ r, Norm.norm2Sparse S rnd junk = .ok r := by
  have hm := Norm.sparse_computes h
  -- a crude bound for the matrix suffices here
  obtain ⟨M, hM0, hM⟩ : ∃ M, 0 ≤ M ∧ Norm.Bound S.rows S.cols (entry S) M := by
    have hb : ∀ (m n : Nat) (A : Nat → Nat → ℝ), ∀ x : Nat → ℝ,
        norm2 m (fun i => ∑ j ∈ Finset.range n, A i j * x j) ≤
          Real.sqrt (∑ i ∈ Finset.range m, ∑ j ∈ Finset.range n, A i j ^ 2) * norm2 n x := by
      intro m n A x
      unfold norm2
      rw [← Real.sqrt_mul (Finset.sum_nonneg fun i _ => Finset.sum_nonneg fun j _ => sq_nonneg _)]
      refine Real.sqrt_le_sqrt ?_
      rw [Finset.sum_mul]
      exact Finset.sum_le_sum fun i _ => Finset.sum_mul_sq_le_sq_mul_sq _ _ _
    refine ⟨max (Real.sqrt (∑ i ∈ Finset.range S.rows, ∑ j ∈ Finset.range S.cols, entry S i j ^ 2))
      (Real.sqrt (∑ i ∈ Finset.range S.cols, ∑ j ∈ Finset.range S.rows, entry S j i ^ 2)),
      le_max_of_le_left (Real.sqrt_nonneg _), ?_, ?_⟩
    · intro x
      exact le_trans (hb S.rows S.cols (entry S) x)
        (mul_le_mul_of_nonneg_right (le_max_left _ _) (Real.sqrt_nonneg _))
    · intro y
      exact le_trans (hb S.cols S.rows (fun j i => entry S i j) y)
        (mul_le_mul_of_nonneg_right (le_max_right _ _) (Real.sqrt_nonneg _))
  unfold Norm.norm2Sparse Norm.norm2Matrix
  obtain ⟨r, e, _⟩ := Norm.power_tot hm hM0 hM Norm.NORM_STEPS ⟨S.rows, rnd⟩ ⟨S.rows, junk⟩
    (Norm.norm2Avector ⟨S.rows, rnd⟩) hsq rfl (by rw [Norm.norm2Avector_eq, hsq])
  simp only [e]
  exact ⟨_, rfl⟩

/-- … but for every rectangular matrix it runs into a dimension assertion (as soon as the random start vector is not
zero): the claim of C23 is false of the code. -/
theorem C23_rectangular_false {S : Sparse ℝ} (hne : S.rows ≠ S.cols) {rnd : Nat → ℝ}
    (hr : 0 < norm2 S.rows rnd) (junk : Nat → ℝ) :
    Norm.norm2Sparse S rnd junk = .error .assertFail ∧
      ∀ T : Sparse ℝ, Norm.norm2diffSparse S T rnd junk = .error .assertFail := by
  have hpos : Norm.norm2Avector ⟨S.rows, rnd⟩ > 0 := by rw [Norm.norm2Avector_eq]; exact hr
  constructor
  · unfold Norm.norm2Sparse Norm.norm2Matrix
    simp only [Norm.NORM_STEPS, Norm.power, hpos, if_true]
    simp [Sparse.mvm, Sparse.addeval, Norm.clearA, Norm.scaleA, cassert, Ne.symm hne, bind, Except.bind]
  · intro T
    unfold Norm.norm2diffSparse Norm.norm2diffMatrix Norm.norm2Matrix
    simp only [Norm.NORM_STEPS, Norm.power, hpos, if_true]
    simp [Sparse.mvm, Sparse.addeval, Norm.clearA, Norm.scaleA, cassert, Ne.symm hne, bind, Except.bind]

example : ∃ (S : Sparse ℝ) (rnd : Nat → ℝ), CSR S ∧ S.rows ≠ S.cols ∧ 0 < norm2 S.rows rnd := by
  obtain ⟨a, _, h, hr, hc, _⟩ := C20_identity (K := ℝ) (fun _ => 0) (fun _ => 0) 1 2
  refine ⟨a, fun _ => 1, h, by omega, ?_⟩
  rw [hr]; simp [norm2]

/-! ## C53 -/

/-- `norm2_matrix` never overestimates: if `M` bounds the matrix and its transpose, the returned estimate is at most
`M`; and it returns at all. -/
theorem C53_lower_bound {mvm : Norm.Mvm} {rows cols : Nat} {A : Nat → Nat → ℝ}
    (hm : Norm.Computes mvm rows cols A) {M : ℝ} (hM0 : 0 ≤ M) (hM : Norm.Bound rows cols A M)
    (rnd junk : Nat → ℝ) :
    ∃ r, Norm.norm2Matrix mvm rows cols rnd junk = .ok r ∧ 0 ≤ r ∧ r ≤ M := by
  unfold Norm.norm2Matrix
  obtain ⟨r, e, h0, _, h⟩ := Norm.power_tot hm hM0 hM Norm.NORM_STEPS ⟨cols, rnd⟩ ⟨rows, junk⟩
    (Norm.norm2Avector ⟨cols, rnd⟩) rfl rfl (by rw [Norm.norm2Avector_eq])
  simp only [e]
  refine ⟨_, rfl, Real.sqrt_nonneg _, ?_⟩
  rw [Real.sqrt_le_left hM0]
  exact h (Or.inl (by decide))

/-- the difference version estimates the norm of `A - B` from below -/
theorem C53_diff_lower_bound {mvmA mvmB : Norm.Mvm} {rows cols : Nat} {A B : Nat → Nat → ℝ}
    (hA : Norm.Computes mvmA rows cols A) (hB : Norm.Computes mvmB rows cols B) {M : ℝ} (hM0 : 0 ≤ M)
    (hM : Norm.Bound rows cols (fun i j => A i j - B i j) M) (rnd junk : Nat → ℝ) :
    ∃ r, Norm.norm2diffMatrix mvmA mvmB rows cols rnd junk = .ok r ∧ 0 ≤ r ∧ r ≤ M := by
  refine C53_lower_bound ?_ hM0 hM rnd junk
  constructor
  · intro alpha x y hx hy
    refine Tot.bind (hA.1 alpha x y hx hy) ?_
    rintro z - ⟨hz1, hz2⟩
    refine (hB.1 (-alpha) x z hx (hz1.trans hy)).mono ?_
    rintro w ⟨hw1, hw2⟩
    refine ⟨hw1.trans hz1, fun i hi => ?_⟩
    rw [hw2 i hi, hz2 i hi]
    simp only [sub_mul, Finset.sum_sub_distrib]
    ring
  · intro alpha x y hx hy
    refine Tot.bind (hA.2 alpha x y hx hy) ?_
    rintro z - ⟨hz1, hz2⟩
    refine (hB.2 (-alpha) x z hx (hz1.trans hy)).mono ?_
    rintro w ⟨hw1, hw2⟩
    refine ⟨hw1.trans hz1, fun i hi => ?_⟩
    rw [hw2 i hi, hz2 i hi]
    simp only [sub_mul, Finset.sum_sub_distrib]
    ring

/-- the hypotheses are met by every sparse matrix, e.g. an identity -/
example : ∃ (mvm : Norm.Mvm) (A : Nat → Nat → ℝ), Norm.Computes mvm 2 2 A ∧ Norm.Bound 2 2 A 1 := by
  obtain ⟨a, _, h, hr, hc, he⟩ := C20_identity (K := ℝ) (fun _ => 0) (fun _ => 0) 2 2
  have := Norm.sparse_computes h
  rw [hr, hc] at this
  refine ⟨_, _, this, ?_, ?_⟩
  · intro x
    rw [one_mul]
    refine le_of_eq (Norm.norm2_congr fun i hi => ?_)
    rw [Finset.sum_congr rfl fun j hj => by rw [he i hi j (Finset.mem_range.mp hj)]]
    simp [hi]
  · intro x
    rw [one_mul]
    refine le_of_eq (Norm.norm2_congr fun i hi => ?_)
    rw [Finset.sum_congr rfl fun j hj => by rw [he j (Finset.mem_range.mp hj) i hi]]
    simp [hi]

end H2.Props
