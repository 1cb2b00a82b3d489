import Verif.Model.Aca
import Verif.Spec.Krylov

/-! # Specification of the cross approximation -/

namespace H2.Spec
open Aca
variable {𝕜 : Type} [RCLike 𝕜]

/-- only finitely many cells are in use -/
def BoundedMem (m : Mem 𝕜) : Prop := ∃ N, ∀ c, N ≤ c → m c = none

/-- a correct allocator: as long as the memory is finite, it returns cells that are not in use -/
def GoodAlloc (al : Alloc 𝕜) : Prop := ∀ m, BoundedMem m → ∀ n, Fresh m (al m n) n

/-- the low-rank matrix owns its two factors, whose blocks do not overlap -/
structure RkOwns (r : Rk) (m : Mem 𝕜) : Prop where
  la : r.A.rows ≤ r.A.ld
  lb : r.B.rows ≤ r.B.ld
  oa : Owns r.A m
  ob : Owns r.B m
  disj : Disj (Block r.A) (Block r.B)

/-- entry `(x, y)` of `A B^*`, where `A` and `B` have `k` columns -/
def rkEntry (r : Rk) (m : Mem 𝕜) (x y : Nat) : 𝕜 := ∑ l ∈ Finset.range r.k, r.A.val m x l * star (r.B.val m y l)

/-- the index arrays hold `k` distinct numbers below `n` -/
def Pivots (p : Arr Nat) (k n : Nat) : Prop :=
  p.n = k ∧ (∀ i < k, p.v i < n) ∧ ∀ i < k, ∀ j < k, p.v i = p.v j → i = j

/-- What a cross approximation `r` of the matrix `A0` with pivots `ridx`, `cidx` has to satisfy: the approximation agrees with `A0`
on all pivot rows and pivot columns; the first factor, restricted to the pivot rows, is unit lower triangular; the second one,
restricted to the pivot columns, is lower triangular with non-zero diagonal. -/
structure IsCross (A0 : Nat → Nat → 𝕜) (rows cols : Nat) (r : Rk) (ridx cidx : Arr Nat) (m : Mem 𝕜) : Prop where
  valid : r.A.Valid m ∧ r.B.Valid m
  dims : r.A.rows = rows ∧ r.B.rows = cols ∧ r.A.cols = r.k ∧ r.B.cols = r.k
  rank : r.k ≤ rows ∧ r.k ≤ cols
  rpiv : Pivots ridx r.k rows
  cpiv : Pivots cidx r.k cols
  row : ∀ l < r.k, ∀ y < cols, rkEntry r m (ridx.v l) y = A0 (ridx.v l) y
  col : ∀ l < r.k, ∀ x < rows, rkEntry r m x (cidx.v l) = A0 x (cidx.v l)
  lower : ∀ i < r.k, ∀ l < r.k, i ≤ l → r.A.val m (ridx.v i) l = if i = l then 1 else 0
  upper : ∀ i < r.k, ∀ l < r.k, i ≤ l → (r.B.val m (cidx.v i) l = 0 ↔ i ≠ l)

/-- the callback fills the matrix with the entries of `A0` for the given indices, or with the adjoint -/
def IsEntry (f : Entry 𝕜) (A0 : Nat → Nat → 𝕜) : Prop :=
  ∀ (ri ci : Nat → Nat) (trans : Bool) (N : Mat) (m : Mem 𝕜), N.Valid m →
    Tot (f ri ci trans N m) (MatBecomes N m (op trans fun i j => A0 (ri i) (ci j)))

/-- Euclidean norm of a column -/
noncomputable def colNorm (a : Mat) (m : Mem 𝕜) (l : Nat) : ℝ := Real.sqrt (∑ i ∈ Finset.range a.rows, ‖a.val m i l‖ ^ 2)

end H2.Spec
