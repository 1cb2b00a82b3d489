import Verif.Proof.Dense2
import Verif.Proof.DenseRandom

/-!
# C24–C29: dense matrices and vectors

`Tot x P` says that the call `x` returns normally (no assertion fails, no cell outside the allocated ones is read or
written) with a result satisfying `P`.  `MatBecomes a m F m'` and `VecBecomes` (`Spec/Dense.lean`) say that afterwards
the window holds `F` and every cell outside the window is unchanged.  The only cells assumed to be allocated are those
of the windows, so normal return also means that nothing outside the windows is read.
-/

namespace H2.Props
open Spec Dense

set_option linter.unusedSectionVars false

variable {K : Type} [Field K] [StarRing K]

/-! ## C24 -/

theorem C24_clear {a : Mat} {m : Mem K} (ha : a.Valid m) : Tot (clear a m) (MatBecomes a m fun _ _ => 0) :=
  clear_tot ha

theorem C24_identity {a : Mat} {m : Mem K} (ha : a.Valid m) :
    Tot (identity a m) (MatBecomes a m fun i j => if i = j then 1 else 0) := identity_tot ha

theorem C24_scale {a : Mat} {m : Mem K} (ha : a.Valid m) (alpha : K) :
    Tot (scale alpha a m) (MatBecomes a m fun i j => alpha * a.val m i j) := scale_tot ha alpha

theorem C24_conjugate {a : Mat} {m : Mem K} (ha : a.Valid m) :
    Tot (conjugate a m) (MatBecomes a m fun i j => star (a.val m i j)) := conjugate_tot ha

/-- `copy_amatrix`: `B = A` or `B = A^*`. -/
theorem C24_copy {a b : Mat} {m : Mem K} (ha : a.Valid m) (hb : b.Valid m) (hd : Disj a.Cell b.Cell) (trans : Bool)
    (hr : b.rows = opRows trans a) (hc : b.cols = opCols trans a) :
    Tot (copy trans a b m) (MatBecomes b m (op trans (a.val m))) := copy_tot ha hb hd trans hr hc

/-- `copy_sub_amatrix`: the common upper left block is copied, the rest of `B` is kept. -/
theorem C24_copy_sub {a b : Mat} {m : Mem K} (ha : a.Valid m) (hb : b.Valid m) (hd : Disj a.Cell b.Cell)
    (trans : Bool) :
    Tot (copySub trans a b m) (MatBecomes b m fun i j => if i < opRows trans a ∧ j < opCols trans a then
      op trans (a.val m) i j else b.val m i j) := copySub_tot ha hb hd trans

/-- `copy_colpiv_amatrix`: columns are taken in the order of the pivot array. -/
theorem C24_copy_colpiv {a b : Mat} {m : Mem K} {colpiv : Arr Nat} (ha : a.Valid m) (hb : b.Valid m)
    (hd : Disj a.Cell b.Cell) (trans : Bool) (hr : b.rows = opRows trans a) (hc : b.cols = opCols trans a)
    (hp : a.cols ≤ colpiv.n) (hlt : ∀ j < a.cols, colpiv.v j < a.cols) :
    Tot (copyColpiv trans a colpiv b m) (MatBecomes b m (op trans fun i j => a.val m i (colpiv.v j))) :=
  copyColpiv_tot ha hb hd trans hr hc hp hlt

/-- `add_amatrix`: `B += alpha op(A)` on the leading block of `B`. -/
theorem C24_add {a b : Mat} {m : Mem K} (ha : a.Valid m) (hb : b.Valid m) (hd : Disj a.Cell b.Cell) (trans : Bool)
    (hr : opRows trans a ≤ b.rows) (hc : opCols trans a ≤ b.cols) (alpha : K) :
    Tot (add alpha trans a b m) (MatBecomes b m fun i j => if i < opRows trans a ∧ j < opCols trans a then
      b.val m i j + alpha * op trans (a.val m) i j else b.val m i j) := add_tot ha hb hd trans hr hc alpha

/-- `addmul_amatrix`: `C += alpha op(A) op(B)` for all four combinations. -/
theorem C24_addmul {a b c : Mat} {m : Mem K} (ha : a.Valid m) (hb : b.Valid m) (hc : c.Valid m)
    (hac : Disj a.Cell c.Cell) (hbc : Disj b.Cell c.Cell) (atrans btrans : Bool)
    (hmid : opCols atrans a = opRows btrans b) (hr : opRows atrans a ≤ c.rows) (hcc : opCols btrans b ≤ c.cols)
    (alpha : K) :
    Tot (addmul alpha atrans a btrans b c m) (MatBecomes c m fun i k =>
      if i < opRows atrans a ∧ k < opCols btrans b then
        c.val m i k + alpha * ∑ j ∈ Finset.range (opCols atrans a), op atrans (a.val m) i j * op btrans (b.val m) j k
      else c.val m i k) := addmul_tot ha hb hc hac hbc atrans btrans hmid hr hcc alpha

/-- `mvm_amatrix_avector` (`addeval`/`addevaltrans_amatrix_avector`): `y += alpha op(A) x`. -/
theorem C24_mvm {a : Mat} {x y : Vec} {m : Mem K} (ha : a.Valid m) (hx : x.Valid m) (hy : y.Valid m)
    (hay : Disj a.Cell y.Cell) (hxy : Disj x.Cell y.Cell) (trans : Bool) (hc : opCols trans a ≤ x.dim)
    (hr : opRows trans a ≤ y.dim) (alpha : K) :
    Tot (mvm alpha trans a x y m) (VecBecomes y m fun i => if i < opRows trans a then
      y.val m i + alpha * ∑ j ∈ Finset.range (opCols trans a), op trans (a.val m) i j * x.val m j
      else y.val m i) := by
  unfold mvm
  cases trans
  · exact addeval_tot ha hx hy hay hxy hc hr alpha
  · exact addevaltrans_tot ha hx hy hay hxy hc hr alpha

/-- `dotprod_amatrix`: the Frobenius inner product. -/
theorem C24_dotprod {a b : Mat} {m : Mem K} (ha : a.Valid m) (hb : b.Valid m) (hr : a.rows = b.rows)
    (hc : a.cols = b.cols) :
    dotprod a b m = .ok (∑ j ∈ Finset.range a.cols, ∑ i ∈ Finset.range a.rows, star (a.val m i j) * b.val m i j) :=
  dotprod_tot ha hb hr hc

/-- `bidiagmul_amatrix`: `A := alpha A L` or `A := (alpha L)^* A` in place, for a lower bidiagonal matrix `L`. -/
theorem C24_bidiagmul {a : Mat} {d l : Vec} {m : Mem K} (ha : a.Valid m) (hd : d.Valid m) (hl : l.Valid m)
    (had : Disj d.Cell a.Cell) (hal : Disj l.Cell a.Cell) (h2 : l.dim + 1 = d.dim) (alpha : K) :
    (a.cols = d.dim → Tot (bidiagmul alpha false a d l m) (MatBecomes a m fun i j => alpha *
      ∑ k ∈ Finset.range a.cols, a.val m i k * bidiag (d.val m) (l.val m) k j)) ∧
    (a.rows = d.dim → Tot (bidiagmul alpha true a d l m) (MatBecomes a m fun i j => star alpha *
      ∑ k ∈ Finset.range a.rows, star (bidiag (d.val m) (l.val m) k i) * a.val m k j)) :=
  ⟨fun h => bidiagmul_false_tot ha hd hl had hal h h2 alpha, fun h => bidiagmul_true_tot ha hd hl had hal h h2 alpha⟩

/-- vector kernels -/
theorem C24_vectors {x y : Vec} {m : Mem K} (hx : x.Valid m) (hy : y.Valid m) (hd : Disj x.Cell y.Cell)
    (alpha : K) :
    Tot (clearVec x m) (VecBecomes x m fun _ => 0) ∧
    Tot (fillVec x alpha m) (VecBecomes x m fun _ => alpha) ∧
    Tot (scaleVec alpha x m) (VecBecomes x m fun i => alpha * x.val m i) ∧
    (x.dim = y.dim → Tot (copyVec x y m) (VecBecomes y m fun i => x.val m i)) ∧
    Tot (copySubVec x y m) (VecBecomes y m fun i => if i < x.dim then x.val m i else y.val m i) ∧
    (x.dim ≤ y.dim → Tot (addVec alpha x y m) (VecBecomes y m fun i =>
      if i < x.dim then y.val m i + alpha * x.val m i else y.val m i)) ∧
    (x.dim = y.dim → dotprodVec x y m = .ok (∑ i ∈ Finset.range x.dim, star (x.val m i) * y.val m i)) :=
  ⟨clearVec_tot hx, fillVec_tot hx alpha, scaleVec_tot hx alpha, copyVec_tot hx hy hd, copySubVec_tot hx hy hd,
    fun h => addVec_tot hx hy hd h alpha, dotprodVec_tot hx hy⟩

/-- a memory of 40 cells; a 2x2 window with leading dimension 3, a 2x3 matrix, a 2x3 target and a vector -/
def exMem : Mem ℚ := fun c => if c < 40 then some (c : ℚ) else none

theorem exMem_some {c : Nat} (h : c < 40) : (exMem c).isSome := by simp [exMem, h]

example : (Mat.mk 0 3 2 2).Valid exMem ∧ (Mat.mk 10 2 2 3).Valid exMem ∧ (Mat.mk 20 2 2 3).Valid exMem ∧
    (Vec.mk 30 2).Valid exMem ∧ (Vec.mk 34 2).Valid exMem ∧
    Disj (Mat.mk 0 3 2 2).Cell (Mat.mk 20 2 2 3).Cell ∧ Disj (Mat.mk 10 2 2 3).Cell (Mat.mk 20 2 2 3).Cell ∧
    Disj (Mat.mk 0 3 2 2).Cell (Vec.mk 30 2).Cell ∧ Disj (Vec.mk 34 2).Cell (Vec.mk 30 2).Cell ∧
    opCols false (Mat.mk 0 3 2 2) = opRows false (Mat.mk 10 2 2 3) := by
  refine ⟨⟨by decide, ?_⟩, ⟨by decide, ?_⟩, ⟨by decide, ?_⟩, ?_, ?_, ?_, ?_, ?_, ?_, rfl⟩
  · intro i hi j hj
    exact exMem_some (by simp only [Mat.addr] at *; omega)
  · intro i hi j hj
    exact exMem_some (by simp only [Mat.addr] at *; omega)
  · intro i hi j hj
    exact exMem_some (by simp only [Mat.addr] at *; omega)
  · intro i hi
    exact exMem_some (by simp only [Vec.addr] at *; omega)
  · intro i hi
    exact exMem_some (by simp only [Vec.addr] at *; omega)
  · rintro c ⟨i, hi, j, hj, rfl⟩ ⟨i', hi', j', hj', e⟩
    simp only [Mat.addr] at *; omega
  · rintro c ⟨i, hi, j, hj, rfl⟩ ⟨i', hi', j', hj', e⟩
    simp only [Mat.addr] at *; omega
  · rintro c ⟨i, hi, j, hj, rfl⟩ ⟨i', hi', e⟩
    simp only [Mat.addr, Vec.addr] at *; omega
  · rintro c ⟨i, hi, rfl⟩ ⟨i', hi', e⟩
    simp only [Vec.addr] at *; omega

/-! ## C25 -/

/-- `init_sub_amatrix` succeeds exactly for windows inside the source; the view then has the requested shape, its entry
`(i, j)` is the entry `(i + roff, j + coff)` of the source (the same memory cell), all its cells are cells of the
source, and it is valid whenever the source is. -/
theorem C25_sub_matrix (src : Mat) (rows roff cols coff : Nat) :
    ((∃ v, initSub src rows roff cols coff = .ok v) ↔ roff + rows ≤ src.rows ∧ coff + cols ≤ src.cols) ∧
    ∀ v, initSub src rows roff cols coff = .ok v →
      v.rows = rows ∧ v.cols = cols ∧ (∀ i j, v.addr i j = src.addr (i + roff) (j + coff)) ∧
      (∀ c, v.Cell c → src.Cell c) ∧
      ∀ m : Mem K, src.Valid m → v.Valid m ∧ ∀ i j, v.val m i j = src.val m (i + roff) (j + coff) := by
  refine ⟨⟨fun ⟨v, h⟩ => ⟨(initSub_ok.mp h).1, (initSub_ok.mp h).2.1⟩,
    fun h => ⟨_, initSub_ok.mpr ⟨h.1, h.2, rfl⟩⟩⟩, fun v h => ?_⟩
  have ha := initSub_addr h
  obtain ⟨h1, h2, rfl⟩ := initSub_ok.mp h
  refine ⟨rfl, rfl, ha, ?_, ?_⟩
  · rintro c ⟨i, hi, j, hj, rfl⟩
    have hi : i < rows := hi
    have hj : j < cols := hj
    exact ⟨i + roff, by omega, j + coff, by omega, ha i j⟩
  · rintro m ⟨hld, hm⟩
    refine ⟨⟨?_, ?_⟩, ?_⟩
    · show rows ≤ src.ld
      omega
    · intro i hi j hj
      have hi : i < rows := hi
      have hj : j < cols := hj
      rw [ha]
      exact hm _ (by omega) _ (by omega)
    · intro i j
      simp only [Mat.val, ha]

/-- Nested views compose: a view of a view is the view with added offsets. -/
theorem C25_nested {src v w : Mat} {r1 o1 c1 p1 r2 o2 c2 p2 : Nat} (h1 : initSub src r1 o1 c1 p1 = .ok v)
    (h2 : initSub v r2 o2 c2 p2 = .ok w) : initSub src r2 (o1 + o2) c2 (p1 + p2) = .ok w := by
  obtain ⟨a1, a2, rfl⟩ := initSub_ok.mp h1
  obtain ⟨b1, b2, rfl⟩ := initSub_ok.mp h2
  have b1 : o2 + r2 ≤ r1 := b1
  have b2 : p2 + c2 ≤ c1 := b2
  refine initSub_ok.mpr ⟨by omega, by omega, ?_⟩
  simp only [Mat.mk.injEq, and_true]
  ring

/-- Views of columns and of parts of vectors. -/
theorem C25_vectors :
    (∀ (src : Mat) (col : Nat), (∃ v, initColumn src col = .ok v) ↔ col < src.cols) ∧
    (∀ (src : Mat) (col : Nat) (v : Vec), initColumn src col = .ok v → v.dim = src.rows ∧
      (∀ i, v.addr i = src.addr i col) ∧ ∀ c, v.Cell c → src.Cell c) ∧
    (∀ (src : Vec) (dim off : Nat), (∃ v, initSubVec src dim off = .ok v) ↔ dim + off ≤ src.dim) ∧
    (∀ (src : Vec) (dim off : Nat) (v : Vec), initSubVec src dim off = .ok v → v.dim = dim ∧
      (∀ i, v.addr i = src.addr (i + off)) ∧ ∀ c, v.Cell c → src.Cell c) := by
  refine ⟨fun src col => ⟨fun ⟨v, h⟩ => (initColumn_ok.mp h).1, fun h => ⟨_, initColumn_ok.mpr ⟨h, rfl⟩⟩⟩, ?_,
    fun src dim off => ⟨fun ⟨v, h⟩ => (initSubVec_ok.mp h).1, fun h => ⟨_, initSubVec_ok.mpr ⟨h, rfl⟩⟩⟩, ?_⟩
  · intro src col v h
    obtain ⟨h1, rfl⟩ := initColumn_ok.mp h
    have ha : ∀ i, (Vec.mk (src.base + col * src.ld) src.rows).addr i = src.addr i col := by
      intro i; simp only [Vec.addr, Mat.addr]; ring
    refine ⟨rfl, ha, ?_⟩
    rintro c ⟨i, hi, rfl⟩
    exact ⟨i, hi, col, h1, ha i⟩
  · intro src dim off v h
    obtain ⟨h1, rfl⟩ := initSubVec_ok.mp h
    refine ⟨rfl, fun i => by simp only [Vec.addr]; ring, ?_⟩
    rintro c ⟨i, hi, rfl⟩
    have hi : i < dim := hi
    exact ⟨i + off, by omega, by simp only [Vec.addr]; ring⟩

example : ∃ v w, initSub (Mat.mk 0 5 5 4) 3 1 3 1 = .ok v ∧ initSub v 2 1 1 2 = .ok w ∧ w.addr 1 0 = 18 :=
  ⟨_, _, rfl, rfl, rfl⟩

/-! ## C26 -/

/-- `init_pointer_amatrix(a, src, rows, cols)` always produces a square `rows` x `rows` matrix over `src`; it is the
requested `rows` x `cols` matrix exactly if `rows = cols`. -/
theorem C26_pointer (src rows cols : Nat) :
    ∃ a, initPointer src rows cols = .ok a ∧ a.rows = rows ∧ a.base = src ∧ a.ld = rows ∧
      (a.cols = cols ↔ rows = cols) := ⟨_, rfl, rfl, rfl, rfl, Iff.rfl⟩

/-- If the buffer holds exactly the `rows * cols` promised cells and `cols < rows`, clearing the matrix made by
`init_pointer_amatrix` runs out of the buffer. -/
theorem C26_pointer_overrun {src rows cols : Nat} (h : cols < rows) {m : Mem K}
    (hm : ∀ c, (m c).isSome ↔ src ≤ c ∧ c < src + rows * cols) :
    ∃ a, initPointer src rows cols = .ok a ∧ ¬ a.Valid m := by
  refine ⟨_, rfl, fun hv => ?_⟩
  have := hv.2 0 (show 0 < rows by omega) cols h
  rw [hm] at this
  simp only [Mat.addr] at this
  rw [Nat.mul_comm] at this
  omega

example : ∃ m : Mem ℚ, ∀ c, (m c).isSome ↔ 7 ≤ c ∧ c < 7 + 3 * 2 := by
  refine ⟨fun c => if 7 ≤ c ∧ c < 7 + 3 * 2 then some 0 else none, fun c => ?_⟩
  by_cases h : 7 ≤ c ∧ c < 7 + 3 * 2
  · simp only [if_pos h]; simpa using h
  · simp only [if_neg h]; simpa using h

/-! ## C27 -/

/-- `clear_lower_amatrix` zeroes exactly the (strictly) lower triangle. -/
theorem C27_lower {a : Mat} {m : Mem K} (ha : a.Valid m) (strict : Bool) :
    Tot (clearLower a strict m)
      (MatBecomes a m fun i j => if (if strict then j < i else j ≤ i) then 0 else a.val m i j) :=
  clearLower_tot ha strict

/-- `clear_upper_amatrix` zeroes exactly the (strictly) upper triangle if `strict` is set or there is at least one
row. -/
theorem C27_upper {a : Mat} {m : Mem K} (ha : a.Valid m) (strict : Bool) (h0 : strict = true ∨ 0 < a.rows)
    (h32 : a.rows < 2 ^ 32) :
    Tot (clearUpper a strict m)
      (MatBecomes a m fun i j => if (if strict then i < j else i ≤ j) then 0 else a.val m i j) :=
  clearUpper_tot ha strict h0 h32

/-- The missing case: without rows but with columns, `clear_upper_amatrix(a, false)` writes to the cell at the matrix's
address although the matrix has no entries: undefined behaviour, or damage to someone else's cell. -/
theorem C27_upper_empty {a : Mat} {m : Mem K} (hr : a.rows = 0) (hc : 0 < a.cols) :
    a.Valid m ∧ (∀ c, ¬ a.Cell c) ∧ (m a.base = none → clearUpper a false m = .error .ub) ∧
    (a.cols = 1 → ∀ x, m a.base = some x → clearUpper a false m = .ok (m.upd a.base 0)) := by
  have e : ∀ (n : Nat) (hn : 0 < n) {σ : Type} (f : Nat → σ → R σ) (s : σ),
      forUp 0 n f s = (f 0 s >>= fun s => loopN f (n - 1) 1 s) := by
    intro n hn σ f s
    obtain ⟨k, rfl⟩ := Nat.exists_eq_add_of_lt hn
    unfold forUp
    simp only [Nat.zero_add, Nat.sub_zero, Nat.add_sub_cancel]
    rfl
  have w : ∀ (m : Mem K), forUp 0 (min 0 ((a.rows + (2 ^ 32 - 1)) % 2 ^ 32) + 1)
      (fun i m => m.write (a.addr i 0) 0) m = m.write a.base 0 := by
    intro m
    rw [Nat.zero_min, e _ (by omega)]
    simp only [Mat.addr, Nat.zero_mul, Nat.zero_add, Nat.add_zero, Nat.sub_self]
    cases m.write a.base 0 <;> rfl
  refine ⟨⟨by omega, fun i hi => by omega⟩, ?_, ?_, ?_⟩
  · rintro c ⟨i, hi, _⟩; omega
  · intro hm
    unfold clearUpper
    simp only [Bool.false_eq_true, if_false]
    rw [e _ hc, w]
    simp only [Mem.write, hm]
    rfl
  · intro hc1 x hm
    unfold clearUpper
    simp only [Bool.false_eq_true, if_false]
    rw [e _ hc, w, Mem.write_ok hm, ok_bind, hc1]
    rfl

example : (Mat.mk 5 0 0 3).rows = 0 ∧ 0 < (Mat.mk 5 0 0 3).cols ∧ (fun _ => none : Mem ℚ) 5 = none :=
  ⟨rfl, by decide, rfl⟩

/-! ## C28 -/

/-- `resizecopy_amatrix` keeps the common part and zeroes the rest, keeps everything outside the old and the new block,
and frees the old block. -/
theorem C28_resizecopy {a : Mat} {m : Mem K} (hld : a.rows ≤ a.ld) (hown : Owns a m) (rows cols nb : Nat)
    (junk : Nat → K) (hfresh : Fresh m nb (rows * cols)) :
    Tot (resizecopy a rows cols nb junk m) fun p =>
      p.1.rows = rows ∧ p.1.cols = cols ∧ p.1.Valid p.2 ∧ Owns p.1 p.2 ∧
      (∀ i < rows, ∀ j < cols, p.1.val p.2 i j = if i < a.rows ∧ j < a.cols then a.val m i j else 0) ∧
      (∀ c, ¬ Block a c → ¬ Block p.1 c → p.2 c = m c) ∧
      ((rows ≠ a.rows ∨ cols ≠ a.cols) → ∀ c, Block a c → p.2 c = none) :=
  resizecopy_tot hld hown rows cols nb junk hfresh

example : Owns (Mat.mk 0 2 2 3) (fun c => if c < 6 then some (c : ℚ) else none) ∧
    Fresh (fun c => if c < 6 then some (c : ℚ) else none) 6 (3 * 2) := by
  refine ⟨fun c _ h => ?_, fun c h _ => ?_⟩
  · have h : c < 6 := by simpa using h
    simp [h]
  · have : ¬ c < 6 := by omega
    simp [this]

/-! ## C29 -/

section Random
open scoped ComplexOrder
variable {𝕜 : Type} [RCLike 𝕜]

/-- `random_invertible_amatrix(a, alpha)` with `alpha > 0` yields a matrix with non-zero determinant, whatever the
generator returns, and touches nothing else. -/
theorem C29_invertible {a : Mat} {m : Mem 𝕜} (ha : a.Valid m) (hsq : a.rows = a.cols) {alpha : ℝ} (hα : 0 < alpha)
    (rnd : Nat → Nat → 𝕜) :
    Tot (randomInvertible a alpha rnd m) fun m' =>
      (Matrix.of fun i j : Fin a.rows => a.val m' i j).det ≠ 0 ∧ Frame a.Cell m m' := by
  refine (randomInvertible_tot ha hsq alpha rnd).mono fun m' h => ⟨?_, h.2.2⟩
  have hv : ∀ i j : Fin a.rows, a.val m' i j = _ := fun i j => h.2.1 i i.2 j (hsq ▸ j.2)
  simp only at hv
  refine det_ne_zero_of_dominate hα fun k => ?_
  simp only [Matrix.of_apply]
  have e : ∀ i ∈ Finset.univ.erase k, ‖a.val m' i k‖ = ‖rnd i k‖ := by
    intro i hi
    rw [hv, if_neg]
    intro e
    exact (Finset.mem_erase.mp hi).1 (Fin.ext e)
  rw [Finset.sum_congr rfl e, colsum_erase a.rows (fun i => ‖rnd i k‖) k, hv, if_pos rfl, RCLike.norm_ofReal,
    abs_of_nonneg]
  · congr 1
    refine Finset.sum_congr rfl fun i _ => ?_
    split <;> simp
  · exact add_nonneg (Finset.sum_nonneg fun _ _ => norm_nonneg _) hα.le

/-- `random_selfadjoint_amatrix(a)` yields a self-adjoint matrix. -/
theorem C29_selfadjoint {a : Mat} {m : Mem 𝕜} (ha : a.Valid m) (hsq : a.rows = a.cols) (rnd : Nat → Nat → 𝕜)
    (rrnd : Nat → ℝ) :
    Tot (randomSelfadjoint a rnd rrnd m) fun m' =>
      (Matrix.of fun i j : Fin a.rows => a.val m' i j).IsHermitian ∧ Frame a.Cell m m' := by
  refine (randomSelfadjoint_tot ha hsq rnd rrnd).mono fun m' h => ⟨?_, h.2.2⟩
  have hv : ∀ i j : Fin a.rows, a.val m' i j = _ := fun i j => h.2.1 i i.2 j (hsq ▸ j.2)
  ext i j
  simp only [Matrix.conjTranspose_apply, Matrix.of_apply]
  rw [hv, hv]
  unfold herm
  rcases lt_trichotomy i.val j.val with h | h | h
  · rw [if_neg (by omega), if_pos h, if_pos h, star_star]
  · rw [h]; simp
  · rw [if_pos h, if_neg (by omega), if_pos h]

/-- `random_spd_amatrix(a, alpha)` with `alpha > 0` yields a self-adjoint positive definite matrix. -/
theorem C29_spd {a : Mat} {m : Mem 𝕜} (ha : a.Valid m) (hsq : a.rows = a.cols) {alpha : ℝ} (hα : 0 < alpha)
    (rnd : Nat → Nat → 𝕜) :
    Tot (randomSpd a alpha rnd m) fun m' =>
      (Matrix.of fun i j : Fin a.rows => a.val m' i j).PosDef ∧ Frame a.Cell m m' := by
  refine (randomSpd_tot ha hsq alpha rnd).mono fun m' h => ⟨?_, h.2.2⟩
  have hv : ∀ i j : Fin a.rows, a.val m' i j = _ := fun i j => h.2.1 i i.2 j (hsq ▸ j.2)
  refine posDef_of_dominate ?_ hα fun k => ?_
  · ext i j
    simp only [Matrix.conjTranspose_apply, Matrix.of_apply]
    rw [hv, hv]
    unfold herm
    rcases lt_trichotomy i.val j.val with h | h | h
    · rw [if_neg (by omega), if_pos h, if_pos h, star_star]
    · rw [h]; simp
    · rw [if_pos h, if_neg (by omega), if_pos h]
  · simp only [Matrix.of_apply]
    have e : ∀ i ∈ Finset.univ.erase k, ‖a.val m' i k‖ = ‖herm rnd (fun _ => 0) i k‖ := by
      intro i hi
      have hne : i.val ≠ k.val := fun e => (Finset.mem_erase.mp hi).1 (Fin.ext e)
      rw [hv]
      unfold herm
      rcases lt_trichotomy i.val k.val with h | h | h
      · rw [if_pos h, if_pos h]
      · exact absurd h hne
      · rw [if_neg (by omega), if_pos h, if_neg (by omega), if_pos h]
    rw [Finset.sum_congr rfl e, colsum_erase a.rows (fun i => ‖herm rnd (fun _ => 0) i k‖) k, hv]
    unfold herm
    rw [if_neg (lt_irrefl _), if_neg (lt_irrefl _)]
    refine congrArg (fun x : ℝ => ((x + alpha : ℝ) : 𝕜)) (Finset.sum_congr rfl fun i _ => ?_)
    by_cases e : i = k.val
    · simp [e]
    · rw [if_neg e]

example : (Mat.mk 0 3 2 2).Valid (fun c => if c < 6 then some (c : ℝ) else none) := by
  refine ⟨by decide, fun i hi j hj => ?_⟩
  have : (Mat.mk 0 3 2 2).addr i j < 6 := by simp only [Mat.addr] at *; omega
  simp only [if_pos this]; rfl

end Random
end H2.Props
