import Verif.Proof.H2Mul3
import Verif.Props.CbMatrix

/-!
# C86: products of H2-matrices and dense matrices

`Spec.h2entry m h i j` is entry `(i, j)` of the matrix represented by `h` (C40), counted from the beginning of its clusters; rows and columns
of the dense matrices are counted in the same way.  `Spec.op tr A` is `A` or its adjoint, `Spec.opRb tr h`, `Spec.opCb tr h` are the bases
for the rows and columns of the H2-matrix or its adjoint.
-/

namespace H2.Props
open Spec

section
variable {G K : Type} [Field K] [StarRing K]

/-- `addmul_h2matrix_amatrix_amatrix(alpha, h2trans, h, xtrans, X, Y)`: `Y += alpha op(H) op(X)` for all four combinations of the flags;
nothing else changes, in particular the temporary matrices are released. -/
theorem C86_left {px py : Nat} {junk : Nat → K} {alpha : K} {h2t xt : Bool} {h : H2Mat G} {X Y : Mat} {s : VSt K}
    (hr : H2Ready s.mem h) (hdy : Disj (CbCell (opRb h2t h)) Y.Cell) (hx : X.Valid s.mem) (hy : Y.Valid s.mem)
    (ex : opRows xt X = (opCb h2t h).size) (ey : Y.rows = (opRb h2t h).size) (ec : opCols xt X = Y.cols)
    (fx : Fresh s.mem px ((opCb h2t h).ktree * Y.cols))
    (fy : Fresh (s.mem.alloc px ((opCb h2t h).ktree * Y.cols) junk) py ((opRb h2t h).ktree * Y.cols)) :
    ∃ s', H2Mat.addmulLeft px py junk alpha h2t h xt X Y s = .ok s' ∧ s'.act = s.act ∧
      MatBecomes Y s.mem (fun i c => Y.val s.mem i c + alpha * ∑ j ∈ Finset.range (opRows xt X),
        op h2t (h2entry s.mem h) i j * op xt (X.val s.mem) j c) s'.mem :=
  H2Mat.addmulLeft_tot hr hdy hx hy ex ey ec fx fy

/-- If the dimensions do not fit, `addmul_h2matrix_amatrix_amatrix` stops with a failed assertion. -/
theorem C86_left_dims {px py : Nat} {junk : Nat → K} {alpha : K} {h2t xt : Bool} {h : H2Mat G} {X Y : Mat} {s : VSt K}
    (hn : ¬ (opRows xt X = (opCb h2t h).size ∧ Y.rows = (opRb h2t h).size ∧ opCols xt X = Y.cols)) :
    H2Mat.addmulLeft px py junk alpha h2t h xt X Y s = .error .assertFail := by
  unfold H2Mat.addmulLeft
  cases h2t <;> cases xt
  all_goals
    simp only [opRows, opCols, opRb, opCb, CBas.size, Bool.false_eq_true, if_false, if_true] at hn
    simp only [Bool.true_eq_false, if_true, if_false]
    unfold cassert
    split
    · rename_i h1
      rw [ok_bind]
      split
      · rename_i h2
        rw [ok_bind]
        split
        · rename_i h3
          exact absurd ⟨of_decide_eq_true h2, of_decide_eq_true h3, of_decide_eq_true h1⟩ hn
        · rfl
      · rfl
    · rfl

/-- `addmul_amatrix_h2matrix_amatrix(alpha, xtrans, X, h2trans, h, Y)` should add `alpha op(X) op(H)` to `Y`.  If not both flags are set, the basis
for the columns of `op(H)` has no sons and `alpha` is real, it does.  The full property is the same for all flags, bases and `alpha`; it is false, see
`C86_right_alpha`, `C86_right_fails` and `C86_right_adjoints`. -/
theorem C86_right_partial {px py : Nat} {junk : Nat → K} {alpha : K} {h2t xt : Bool} {h : H2Mat G} {X Y : Mat} {s : VSt K}
    (hf : ¬ (h2t = true ∧ xt = true)) (hl : (opCb h2t h).sons = 0) (ha : star alpha = alpha)
    (hr : H2Ready s.mem h) (hdy : Disj (CbCell (opCb h2t h)) Y.Cell) (hx : X.Valid s.mem) (hy : Y.Valid s.mem)
    (ex : opCols xt X = (opRb h2t h).size) (ey : Y.cols = (opCb h2t h).size) (ec : opRows xt X = Y.rows)
    (fx : Fresh s.mem px ((opRb h2t h).ktree * Y.rows))
    (fy : Fresh (s.mem.alloc px ((opRb h2t h).ktree * Y.rows) junk) py ((opCb h2t h).ktree * Y.rows)) :
    ∃ s', H2Mat.addmulRight px py junk alpha xt X h2t h Y s = .ok s' ∧ s'.act = s.act ∧
      MatBecomes Y s.mem (fun i c => Y.val s.mem i c + alpha * ∑ j ∈ Finset.range (opCols xt X),
        op xt (X.val s.mem) i j * op h2t (h2entry s.mem h) j c) s'.mem := by
  have := H2Mat.addmulRight_leaf (alpha := alpha) hf hl hr hdy hx hy ex ey ec fx fy
  rwa [ha] at this

/-- In the case of `C86_right_partial` with arbitrary `alpha`, the factor is the conjugate of `alpha`. -/
theorem C86_right_alpha {px py : Nat} {junk : Nat → K} {alpha : K} {h2t xt : Bool} {h : H2Mat G} {X Y : Mat} {s : VSt K}
    (hf : ¬ (h2t = true ∧ xt = true)) (hl : (opCb h2t h).sons = 0)
    (hr : H2Ready s.mem h) (hdy : Disj (CbCell (opCb h2t h)) Y.Cell) (hx : X.Valid s.mem) (hy : Y.Valid s.mem)
    (ex : opCols xt X = (opRb h2t h).size) (ey : Y.cols = (opCb h2t h).size) (ec : opRows xt X = Y.rows)
    (fx : Fresh s.mem px ((opRb h2t h).ktree * Y.rows))
    (fy : Fresh (s.mem.alloc px ((opRb h2t h).ktree * Y.rows) junk) py ((opCb h2t h).ktree * Y.rows)) :
    ∃ s', H2Mat.addmulRight px py junk alpha xt X h2t h Y s = .ok s' ∧ s'.act = s.act ∧
      MatBecomes Y s.mem (fun i c => Y.val s.mem i c + star alpha * ∑ j ∈ Finset.range (opCols xt X),
        op xt (X.val s.mem) i j * op h2t (h2entry s.mem h) j c) s'.mem :=
  H2Mat.addmulRight_leaf hf hl hr hdy hx hy ex ey ec fx fy

/-- If not both flags are set and the basis for the columns of `op(H)` has sons, an assertion fails unless `Y` happens to have as many
rows as the first son has indices. -/
theorem C86_right_fails {px py : Nat} {junk : Nat → K} {alpha : K} {h2t xt : Bool} {h : H2Mat G} {X Y : Mat} {s : VSt K}
    (hf : ¬ (h2t = true ∧ xt = true)) (hl : 0 < (opCb h2t h).sons) (hne : Y.rows ≠ ((opCb h2t h).son ⟨0, hl⟩).size)
    (hr : H2Ready s.mem h) (hx : X.Valid s.mem)
    (ex : opCols xt X = (opRb h2t h).size) (ey : Y.cols = (opCb h2t h).size) (ec : opRows xt X = Y.rows)
    (fx : Fresh s.mem px ((opRb h2t h).ktree * Y.rows))
    (fy : Fresh (s.mem.alloc px ((opRb h2t h).ktree * Y.rows) junk) py ((opCb h2t h).ktree * Y.rows)) :
    H2Mat.addmulRight px py junk alpha xt X h2t h Y s = .error .assertFail :=
  H2Mat.addmulRight_fail hf hl hne hr hx ex ey ec fx fy

/-- If both flags are set, `addmul_amatrix_h2matrix_amatrix` should add `alpha X^* H^*`.  If `Y` is square, it adds `alpha H X`, otherwise an
assertion fails. -/
theorem C86_right_adjoints {px py : Nat} {junk : Nat → K} {alpha : K} {h : H2Mat G} {X Y : Mat} {s : VSt K}
    (hr : H2Ready s.mem h) (hdy : Disj (CbCell h.rb) Y.Cell) (hx : X.Valid s.mem) (hy : Y.Valid s.mem)
    (ex : X.rows = h.cb.size) (ey : Y.cols = h.rb.size) (ec : X.cols = Y.rows) (fx : Fresh s.mem px (h.cb.ktree * Y.rows))
    (fy : Fresh (s.mem.alloc px (h.cb.ktree * Y.rows) junk) py (h.rb.ktree * Y.rows)) :
    (Y.rows = Y.cols → ∃ s', H2Mat.addmulRight px py junk alpha true X true h Y s = .ok s' ∧ s'.act = s.act ∧
      MatBecomes Y s.mem (fun i c => Y.val s.mem i c + alpha * ∑ j ∈ Finset.range X.rows, h2entry s.mem h i j * X.val s.mem j c) s'.mem) ∧
    (Y.rows ≠ Y.cols → H2Mat.addmulRight px py junk alpha true X true h Y s = .error .assertFail) := by
  have := H2Mat.addmulRight_both (alpha := alpha) hr hdy hx hy ex ey ec fx fy
  rw [← ey] at this
  constructor
  · intro h; rw [if_pos h] at this; exact this
  · intro h; rw [if_neg h] at this; exact this
end

/-! ### examples -/

theorem cbex_leaf (i : Fin 2) : CbCell (cbexSon i) ≤ CbCell cbex := fun _ h => .inr ⟨i, .inr h⟩

theorem cbMem_fresh {p n : Nat} (h : 50 ≤ p) : Fresh cbMem p n := by
  intro c h1 h2
  have : ¬ c < 50 := by omega
  simp [cbMem, this]

theorem cbMem_fresh2 {p n q k : Nat} {junk : Nat → ℚ} (h : 50 ≤ p) (h' : p + n ≤ q) : Fresh (cbMem.alloc p n junk) q k := by
  intro c h1 h2
  have h3 : ¬ c < 50 := by omega
  have h4 : ¬ c < p + n := by omega
  simp [Mem.alloc, cbMem, h3, h4]

/-- the hypotheses of `C86_left` hold for the example of C40, all flags and two columns -/
example (h2t : Bool) : ∃ s', H2Mat.addmulLeft 60 80 (fun _ => 7) 2 h2t h2ex false ⟨20, 5, 5, 2⟩ ⟨31, 5, 5, 2⟩ ⟨cbMem, 3⟩ = .ok s' ∧
    s'.act = 3 ∧ MatBecomes ⟨31, 5, 5, 2⟩ cbMem (fun i c => Mat.val ⟨31, 5, 5, 2⟩ cbMem i c + 2 * ∑ j ∈ Finset.range 5,
      op h2t (h2entry cbMem h2ex) i j * Mat.val ⟨20, 5, 5, 2⟩ cbMem j c) s'.mem := by
  obtain ⟨h1, h2, h3⟩ := h2ex_ready
  have eb : opRb h2t h2ex = cbex := by cases h2t <;> rfl
  have ec : opCb h2t h2ex = cbex := by cases h2t <;> rfl
  exact C86_left (s := ⟨cbMem, 3⟩) (xt := false) h1 (by rw [eb]; exact cbex_disj (by omega)) (cbMem_mat (by omega)) (cbMem_mat (by omega))
    (by rw [ec]; rfl) (by rw [eb]; rfl) rfl (cbMem_fresh (by omega)) (cbMem_fresh2 (by omega) (by rw [ec]; decide))

/-- the same with the adjoint of a matrix with two rows -/
example (h2t : Bool) : ∃ s', H2Mat.addmulLeft 60 80 (fun _ => 7) 2 h2t h2ex true ⟨20, 2, 2, 5⟩ ⟨31, 5, 5, 2⟩ ⟨cbMem, 3⟩ = .ok s' ∧
    s'.act = 3 ∧ MatBecomes ⟨31, 5, 5, 2⟩ cbMem (fun i c => Mat.val ⟨31, 5, 5, 2⟩ cbMem i c + 2 * ∑ j ∈ Finset.range 5,
      op h2t (h2entry cbMem h2ex) i j * op true (Mat.val ⟨20, 2, 2, 5⟩ cbMem) j c) s'.mem := by
  obtain ⟨h1, h2, h3⟩ := h2ex_ready
  have eb : opRb h2t h2ex = cbex := by cases h2t <;> rfl
  have ec : opCb h2t h2ex = cbex := by cases h2t <;> rfl
  exact C86_left (s := ⟨cbMem, 3⟩) (xt := true) h1 (by rw [eb]; exact cbex_disj (by omega)) (cbMem_mat (by omega)) (cbMem_mat (by omega))
    (by rw [ec]; rfl) (by rw [eb]; rfl) rfl (cbMem_fresh (by omega)) (cbMem_fresh2 (by omega) (by rw [ec]; decide))

/-- a failing call for the example -/
example : H2Mat.addmulRight 60 80 (fun _ => 7) 2 false ⟨20, 1, 1, 5⟩ false h2ex ⟨31, 1, 1, 5⟩ ⟨cbMem, 3⟩ = .error .assertFail :=
  C86_right_fails (by simp) (show 0 < 2 by decide) (show 1 ≠ (cbexSon 0).size by decide) h2ex_ready.1 (cbMem_mat (by omega))
    rfl rfl rfl (cbMem_fresh (by omega)) (cbMem_fresh2 (by omega) (by decide))

/-- a dense block of two rows and columns -/
def h2leaf : H2Mat Nat := .full (cbexSon 0) (cbexSon 0) ⟨16, 2, 2, 2⟩

theorem h2leaf_ready : H2Ready cbMem h2leaf := by
  have h := h2ex_ready.1
  exact ⟨⟨rfl, rfl, rfl, rfl⟩, (cbex_ok.2.2 0).2.2, (cbex_ok.2.2 0).2.2, cbex_sons.2 0, cbex_sons.2 0, cbMem_mat (by omega),
    (h.2.2.2.2.2.2.1.2 0).2, (h.2.2.2.2.2.2.1.2 0).2⟩

theorem h2leaf_disj : Disj (CbCell (cbexSon 0)) (Mat.Cell ⟨40, 2, 2, 2⟩) := fun c h => cbex_disj (by omega) c (cbex_leaf 0 c h)

/-- the hypotheses of `C86_right_partial` hold for a leaf -/
example (h2t : Bool) : ∃ s', H2Mat.addmulRight 60 80 (fun _ => 7) 2 false ⟨0, 2, 2, 2⟩ h2t h2leaf ⟨40, 2, 2, 2⟩ ⟨cbMem, 3⟩ = .ok s' ∧
    s'.act = 3 ∧ MatBecomes ⟨40, 2, 2, 2⟩ cbMem (fun i c => Mat.val ⟨40, 2, 2, 2⟩ cbMem i c + 2 * ∑ j ∈ Finset.range 2,
      Mat.val ⟨0, 2, 2, 2⟩ cbMem i j * op h2t (h2entry cbMem h2leaf) j c) s'.mem := by
  have eb : opRb h2t h2leaf = cbexSon 0 := by cases h2t <;> rfl
  have ec : opCb h2t h2leaf = cbexSon 0 := by cases h2t <;> rfl
  exact C86_right_partial (s := ⟨cbMem, 3⟩) (xt := false) (by simp) (by rw [ec]; rfl) rfl h2leaf_ready (by rw [ec]; exact h2leaf_disj)
    (cbMem_mat (by omega)) (cbMem_mat (by omega)) (by rw [eb]; rfl) (by rw [ec]; rfl) rfl (cbMem_fresh (by omega))
    (cbMem_fresh2 (by omega) (by rw [eb]; decide))

/-- With both flags the result for this leaf is wrong: entry `(0, 1)` is not the one of `Y + X^* H^*`. -/
theorem C86_right_adjoints_wrong : H2Ready cbMem h2leaf ∧
    ∃ s', H2Mat.addmulRight 60 80 (fun _ => 7) 1 true ⟨0, 2, 2, 2⟩ true h2leaf ⟨40, 2, 2, 2⟩ ⟨cbMem, 3⟩ = .ok s' ∧
      Mat.val ⟨40, 2, 2, 2⟩ s'.mem 0 1 ≠ Mat.val ⟨40, 2, 2, 2⟩ cbMem 0 1 + 1 * ∑ j ∈ Finset.range 2,
        op true (Mat.val ⟨0, 2, 2, 2⟩ cbMem) 0 j * op true (h2entry cbMem h2leaf) j 1 := by
  refine ⟨h2leaf_ready, ?_⟩
  obtain ⟨s', e, -, h⟩ := (C86_right_adjoints (px := 60) (py := 80) (junk := fun _ => 7) (alpha := 1) (X := ⟨0, 2, 2, 2⟩)
    (Y := ⟨40, 2, 2, 2⟩) (s := ⟨cbMem, 3⟩) h2leaf_ready h2leaf_disj
    (cbMem_mat (by omega)) (cbMem_mat (by omega)) rfl rfl rfl (cbMem_fresh (by omega)) (cbMem_fresh2 (by omega) (by decide))).1 rfl
  refine ⟨s', e, ?_⟩
  rw [h.2.1 0 (by decide) 1 (by decide)]
  have he : ∀ i < 2, ∀ j < 2, h2entry cbMem h2leaf i j = Mat.val ⟨16, 2, 2, 2⟩ cbMem i j := by
    intro i hi j hj
    unfold h2entry h2leaf
    rw [h2place, if_pos ⟨H2.In.add hi, H2.In.add hj⟩]
    simp only [H2Mat.rb, H2Mat.cb, Nat.add_sub_cancel_left]
  simp only [op, if_true, Finset.sum_range_succ, Finset.sum_range_zero]
  rw [he 0 (by omega) 0 (by omega), he 0 (by omega) 1 (by omega), he 1 (by omega) 0 (by omega), he 1 (by omega) 1 (by omega)]
  decide +kernel

end H2.Props
