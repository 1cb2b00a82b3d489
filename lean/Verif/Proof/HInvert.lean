import Verif.Spec.HInvert
import Verif.Proof.HSolve6
import Verif.Proof.QR6
import Mathlib.LinearAlgebra.Matrix.SchurComplement

/-! Inversion by block elimination: matrices -/

set_option linter.unusedSectionVars false

namespace H2.HI
open Matrix Spec
variable {K : Type} [Field K]

/-- a block of a matrix -/
def blk (o1 n1 o2 n2 : Nat) (f : Nat → Nat → K) : Matrix (Fin n1) (Fin n2) K := of fun i j => f (o1 + i) (o2 + j)

theorem blk_congr {o1 n1 o2 n2 : Nat} {f g : Nat → Nat → K} (h : ∀ i < n1, ∀ j < n2, f (o1 + i) (o2 + j) = g (o1 + i) (o2 + j)) : blk o1 n1 o2 n2 f = blk o1 n1 o2 n2 g := by
  ext i j; exact h i i.2 j j.2

theorem blk_mul {o1 n1 o2 n2 o3 n3 : Nat} {f g h : Nat → Nat → K} {a : K}
    (e : ∀ i < n1, ∀ j < n3, h (o1 + i) (o3 + j) = a * ∑ l ∈ Finset.range n2, f (o1 + i) (o2 + l) * g (o2 + l) (o3 + j)) :
    blk o1 n1 o3 n3 h = a • (blk o1 n1 o2 n2 f * blk o2 n2 o3 n3 g) := by
  ext i j
  rw [Matrix.smul_apply, Matrix.mul_apply, smul_eq_mul]
  refine (e i i.2 j j.2).trans ?_
  rw [Finset.sum_range]
  rfl

/-- `X` is the inverse of the block `[o, o + q)²` of `S` -/
def InvOn (S X : Nat → Nat → K) (o q : Nat) : Prop := blk o q o q S * blk o q o q X = 1

theorem blk_blocks (f : Nat → Nat → K) (s b q : Nat) :
    (blk s (b + q) s (b + q) f).submatrix finSumFinEquiv finSumFinEquiv =
      fromBlocks (blk s b s b f) (blk s b (s + b) q f) (blk (s + b) q s b f) (blk (s + b) q (s + b) q f) := by
  ext i j
  rcases i with i | i <;> rcases j with j | j <;> simp [blk, Nat.add_assoc]

/-- one step of the elimination: `P` inverts the pivot block, `W` contains the products with the first block column and row, `S'` is the Schur complement -/
structure Elim (S P W S' : Nat → Nat → K) (s b q : Nat) : Prop where
  piv : blk s b s b S * blk s b s b P = 1
  col : blk (s + b) q s b W = blk (s + b) q s b S * blk s b s b P
  row : blk s b (s + b) q W = blk s b s b P * blk s b (s + b) q S
  schur : blk (s + b) q (s + b) q S' = blk (s + b) q (s + b) q S - blk (s + b) q s b W * blk s b (s + b) q S

theorem Elim.inv {S P W S' X : Nat → Nat → K} {s b q : Nat} (h : Elim S P W S' s b q) (h' : InvOn S' X (s + b) q)
    (e21 : blk (s + b) q s b X = -(blk (s + b) q (s + b) q X * blk (s + b) q s b W))
    (e12 : blk s b (s + b) q X = -(blk s b (s + b) q W * blk (s + b) q (s + b) q X))
    (e11 : blk s b s b X = blk s b s b P - blk s b (s + b) q X * blk (s + b) q s b W) : InvOn S X s (b + q) := by
  unfold InvOn at h' ⊢
  have key : (blk s (b + q) s (b + q) S).submatrix finSumFinEquiv finSumFinEquiv * (blk s (b + q) s (b + q) X).submatrix finSumFinEquiv finSumFinEquiv = 1 := by
    rw [blk_blocks, blk_blocks, e11, e12, e21, fromBlocks_multiply, ← fromBlocks_one]
    have hp := h.piv
    have hsc := h.schur
    rw [hsc] at h'
    rw [h.col, h.row] at *
    generalize blk s b s b S = A at *
    generalize blk s b s b P = P at *
    generalize blk s b (s + b) q S = B at *
    generalize blk (s + b) q s b S = C at *
    generalize blk (s + b) q (s + b) q S = D at *
    generalize blk (s + b) q (s + b) q X = T at *
    have hD : D * T = 1 + C * P * B * T := by
      rw [sub_mul] at h'
      rw [← h']; abel
    have hAP : ∀ {r : Type} [Fintype r] (M : Matrix (Fin b) r K), A * (P * M) = M := fun M => by rw [← Matrix.mul_assoc, hp, Matrix.one_mul]
    congr 1
    · simp only [mul_sub, Matrix.mul_neg, Matrix.neg_mul, sub_neg_eq_add, Matrix.mul_assoc, Matrix.mul_add, hp, hAP]
      abel
    · simp only [Matrix.mul_neg, Matrix.mul_assoc, hAP]
      abel
    · have : D * (T * (C * P)) = C * P + C * P * B * T * (C * P) := by rw [← Matrix.mul_assoc, hD, Matrix.add_mul, Matrix.one_mul]
      simp only [mul_sub, Matrix.mul_neg, Matrix.neg_mul, sub_neg_eq_add]
      rw [Matrix.mul_add, this]
      simp only [Matrix.mul_assoc]
      abel
    · rw [Matrix.mul_neg, hD]
      simp only [Matrix.mul_assoc]
      abel
  rw [submatrix_mul_equiv] at key
  have := congrArg (fun M => M.submatrix finSumFinEquiv.symm finSumFinEquiv.symm) key
  simpa [submatrix_submatrix] using this

theorem Elim.minor {S P W S' : Nat → Nat → K} {s b q : Nat} (h : Elim S P W S' s b q) {e : Nat} (he : e ≤ q) (hm : minor (fun r c => S (s + r) (s + c)) (b + e) ≠ 0) :
    minor (fun r c => S' (s + b + r) (s + b + c)) e ≠ 0 := by
  have e1 : H2.Spec.minor (fun r c => S (s + r) (s + c)) (b + e) = (blk s (b + e) s (b + e) S).det := rfl
  have e2 : H2.Spec.minor (fun r c => S' (s + b + r) (s + b + c)) e = (blk (s + b) e (s + b) e S').det := rfl
  rw [e1, ← det_submatrix_equiv_self finSumFinEquiv, blk_blocks] at hm
  rw [e2]
  letI := invertibleOfRightInverse _ _ h.piv
  have hinv : ⅟ (blk s b s b S) = blk s b s b P := rfl
  rw [det_fromBlocks₁₁, hinv] at hm
  have e3 : blk (s + b) e (s + b) e S' = blk (s + b) e (s + b) e S - blk (s + b) e s b S * blk s b s b P * blk s b (s + b) e S := by
    have hsc := h.schur
    rw [h.col] at hsc
    ext i j
    have := congrFun (congrFun hsc (Fin.castLE he i)) (Fin.castLE he j)
    exact this
  rw [e3]
  exact right_ne_zero_of_mul hm

end H2.HI
