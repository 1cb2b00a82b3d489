import Verif.Proof.Rk

/-!
# C30, C31: low-rank matrices and truncation

`Rk.val r m i j` is entry `(i, j)` of `A B^*` in memory `m` (`Spec/Rk.lean`); `op trans` selects the matrix or its
adjoint.
-/

namespace H2.Props
open Spec

section
variable {K : Type} [Field K] [StarRing K]

/-! ## C30 -/

/-- `mvm_rkmatrix_avector` (`addeval`/`addevaltrans_rkmatrix_avector`): `y += alpha op(A B^*) x`, nothing else changes. -/
theorem C30_mvm {r : Rk} {x y : Vec} {m : Mem K} (hr : r.Valid m) (hx : x.Valid m) (hy : y.Valid m)
    (hry : Disj r.Cell y.Cell) (hxy : Disj x.Cell y.Cell) (trans : Bool) (hyd : y.dim = r.rows trans)
    (hxd : x.dim = r.cols trans) (alpha : K) :
    Tot (Rk.mvm alpha trans r x y m) (VecBecomes y m fun i => y.val m i + alpha *
      ∑ j ∈ Finset.range (r.cols trans), op trans (r.val m) i j * x.val m j) :=
  Rk.mvm_tot hr hx hy hry hxy trans hyd hxd alpha

/-- Evaluation and adjoint evaluation are adjoint: if `u` and `v` are the increments computed for `x` and `y`, then
`<y, u> = <v, x>` for the inner product `<p, q> = sum conj(p_i) q_i`. -/
theorem C30_adjoint (r : Rk) (m : Mem K) (x y : Nat → K) :
    ∑ i ∈ Finset.range r.A.rows, star (y i) * ∑ j ∈ Finset.range r.B.rows, op false (r.val m) i j * x j =
      ∑ j ∈ Finset.range r.B.rows, star (∑ i ∈ Finset.range r.A.rows, op true (r.val m) j i * y i) * x j := by
  simp only [op, Bool.false_eq_true, if_false, if_true, star_sum, star_mul', star_star, Finset.mul_sum, Finset.sum_mul]
  rw [Finset.sum_comm]
  exact Finset.sum_congr rfl fun j _ => Finset.sum_congr rfl fun i _ => by ring

/-- `add_rkmatrix_amatrix`: `B += alpha op(A B^*)`. -/
theorem C30_add_amatrix {r : Rk} {b : Mat} {m : Mem K} (hr : r.Valid m) (hb : b.Valid m) (hd : Disj r.Cell b.Cell)
    (trans : Bool) (h1 : b.rows = r.rows trans) (h2 : b.cols = r.cols trans) (alpha : K) :
    Tot (Rk.addAmatrix alpha trans r b m) (MatBecomes b m fun i j => b.val m i j + alpha * op trans (r.val m) i j) :=
  Rk.addAmatrix_tot hr hb hd trans h1 h2 alpha

/-- `scale_rkmatrix` scales the product. -/
theorem C30_scale {r : Rk} {m : Mem K} (hr : r.Valid m) (alpha : K) :
    Tot (Rk.scale alpha r m) fun m' => r.Valid m' ∧ Frame r.Cell m m' ∧
      ∀ i < r.A.rows, ∀ j < r.B.rows, r.val m' i j = alpha * r.val m i j := Rk.scale_tot hr alpha

/-- `init_sub_rkmatrix`: the view represents the submatrix. -/
theorem C30_sub {src : Rk} {m : Mem K} (h : src.Valid m) {rows roff cols coff : Nat} (h1 : roff + rows ≤ src.A.rows)
    (h2 : coff + cols ≤ src.B.rows) :
    Tot (Rk.initSub src rows roff cols coff) fun r => r.Valid m ∧ r.A.rows = rows ∧ r.B.rows = cols ∧
      (∀ c, r.Cell c → src.Cell c) ∧ ∀ m' : Mem K, ∀ i j, r.val m' i j = src.val m' (i + roff) (j + coff) :=
  Rk.initSub_tot h h1 h2

/-- `copy_rkmatrix` into a matrix of the same rank. -/
theorem C30_copy_same_rank {a b : Rk} {m : Mem K} (ha : a.Valid m) (hb : b.Valid m) (hd : Disj a.Cell b.Cell)
    (hk : b.k = a.k) (trans : Bool) (h1 : b.A.rows = a.rows trans) (h2 : b.B.rows = a.cols trans) (nbA nbB : Nat)
    (junk : Nat → K) :
    Tot (Rk.copy trans a b nbA nbB junk m) fun p => p.1 = b ∧ b.Valid p.2 ∧ Frame b.Cell m p.2 ∧
        ∀ i < b.A.rows, ∀ j < b.B.rows, b.val p.2 i j = op trans (a.val m) i j :=
  Rk.copy_same ha hb hd hk trans h1 h2 nbA nbB junk

/-- `copy_rkmatrix` into a matrix of another rank: the factors of `b` are reallocated at addresses `nbA`, `nbB` not in
use at that time (with arbitrary contents); the result represents `op(a)`, and memory outside the old blocks and the new
factors is unchanged. -/
theorem C30_copy_new_rank {a b : Rk} {m : Mem K} (ha : a.Valid m) (hkA : b.A.cols = b.k) (hkB : b.B.cols = b.k)
    (hd : ∀ c, a.Cell c → ¬ Block b.A c ∧ ¬ Block b.B c) (hk : b.k ≠ a.k)
    (trans : Bool) (h1 : b.A.rows = a.rows trans) (h2 : b.B.rows = a.cols trans) (nbA nbB : Nat) (junk : Nat → K)
    (hfA : Fresh (m.free b.A.base (b.A.ld * b.A.cols)) nbA (b.A.rows * a.k))
    (hfB : Fresh (((m.free b.A.base (b.A.ld * b.A.cols)).alloc nbA (b.A.rows * a.k) junk).free b.B.base
      (b.B.ld * b.B.cols)) nbB (b.B.rows * a.k))
    (hBA : ∀ c, nbA ≤ c → c < nbA + b.A.rows * a.k → ¬ Block b.B c) :
    Tot (Rk.copy trans a b nbA nbB junk m) fun p => p.1.Valid p.2 ∧ p.1.A.rows = b.A.rows ∧ p.1.B.rows = b.B.rows ∧
        p.1.k = a.k ∧ (∀ c, ¬ Block b.A c → ¬ Block b.B c → ¬ p.1.Cell c → p.2 c = m c) ∧
        ∀ i < b.A.rows, ∀ j < b.B.rows, p.1.val p.2 i j = op trans (a.val m) i j :=
  Rk.copy_resize ha hkA hkB hd hk trans h1 h2 nbA nbB junk hfA hfB hBA

end

/-- memory with cells 0..29 in use -/
def exMemRk : Mem ℚ := fun c => if c < 30 then some (c : ℚ) else none

theorem exMemRk_some {c : Nat} (h : c < 30) : (exMemRk c).isSome := by simp [exMemRk, h]

/-- a 3 x 2 matrix of rank 1 and vectors meet the hypotheses -/
example : (Rk.mk ⟨0, 3, 3, 1⟩ ⟨3, 2, 2, 1⟩ 1).Valid exMemRk ∧ (Vec.mk 10 2).Valid exMemRk ∧ (Vec.mk 12 3).Valid exMemRk ∧
    Disj (Rk.mk ⟨0, 3, 3, 1⟩ ⟨3, 2, 2, 1⟩ 1).Cell (Vec.mk 12 3).Cell := by
  refine ⟨⟨⟨by decide, ?_⟩, ⟨by decide, ?_⟩, ?_, rfl, rfl⟩, ?_, ?_, ?_⟩
  · intro i hi j hj; exact exMemRk_some (by simp only [Mat.addr] at *; omega)
  · intro i hi j hj; exact exMemRk_some (by simp only [Mat.addr] at *; omega)
  · rintro c ⟨i, hi, j, hj, rfl⟩ ⟨i', hi', j', hj', e⟩
    simp only [Mat.addr] at *; omega
  · intro i hi; exact exMemRk_some (by simp only [Vec.addr] at *; omega)
  · intro i hi; exact exMemRk_some (by simp only [Vec.addr] at *; omega)
  · rintro c (⟨i, hi, j, hj, rfl⟩ | ⟨i, hi, j, hj, rfl⟩) ⟨i', hi', e⟩ <;>
      simp only [Mat.addr, Vec.addr] at * <;> omega

/-- the allocator hypotheses of `C30_copy_new_rank` can be met: old factors of rank 2 at 14 and 20, new ones behind -/
example : Fresh (exMemRk.free 14 (3 * 2)) 30 (3 * 1) ∧
    Fresh (((exMemRk.free 14 (3 * 2)).alloc 30 (3 * 1) (fun _ => 7)).free 20 (2 * 2)) 20 (2 * 1) := by
  refine ⟨fun c h1 h2 => ?_, fun c h1 h2 => ?_⟩
  · have : ¬ c < 30 := by omega
    simp [Mem.free, exMemRk, this]
  · have : 20 ≤ c ∧ c < 20 + 2 * 2 := ⟨h1, by omega⟩
    simp only [Mem.free, if_pos this]

/-! ## C31 -/

/-- For decreasing singular values `findrank_truncmode` returns the smallest rank `k ≤ dim` for which the discarded
values `sigma[k], …` satisfy the criterion of the mode (`Spec.Acceptable`); it reads nothing outside the array. -/
theorem C31_findrank {R' : Type} [Field R'] [LinearOrder R'] [IsStrictOrderedRing R'] (tm : Option Trunc.Mode)
    (eps : R') (sigma : Arr R') (hdec : ∀ i j, i ≤ j → j < sigma.n → sigma.v j ≤ sigma.v i) :
    Tot (Trunc.findrank tm eps sigma) fun k => k ≤ sigma.n ∧ Acceptable tm eps sigma.n sigma.v k ∧
      ∀ k' < k, ¬ Acceptable tm eps sigma.n sigma.v k' := Trunc.findrank_tot tm eps sigma hdec

/-- a decreasing sequence -/
example : ∀ i j, i ≤ j → j < 3 → ((3 - j : Nat) : ℚ) ≤ ((3 - i : Nat) : ℚ) := by
  intro i j h _; exact_mod_cast Nat.sub_le_sub_left h 3

end H2.Props
