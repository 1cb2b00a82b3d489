import Verif.Model.QR
import Verif.Spec.Factor
import Mathlib.LinearAlgebra.UnitaryGroup
import Mathlib.Analysis.RCLike.Basic

/-! # Unitary factorizations -/

namespace H2.Spec
variable {𝕜 : Type} [RCLike 𝕜]

/-- the leading `r` rows and `c` columns of `F` -/
def toMat (r c : Nat) (F : Nat → Nat → 𝕜) : Matrix (Fin r) (Fin c) 𝕜 := Matrix.of fun i j => F i j

/-- The vector of the `k`-th elementary reflection: zero above position `k`, one in position `k`, the entries of column `k` of `V` below. -/
def hvec (n : Nat) (V : Nat → Nat → 𝕜) (k : Nat) : Fin n → 𝕜 := fun i => if i.1 < k then 0 else if i.1 = k then 1 else V i k

/-- `I - t v v^*` -/
def reflector {n : Nat} (v : Fin n → 𝕜) (t : 𝕜) : Matrix (Fin n) (Fin n) 𝕜 := 1 - t • Matrix.vecMulVec v (star v)

/-- The matrix `Q = H_0 H_1 … H_{k-1}` that is represented by the reflection vectors below the diagonal of `V` and the scaling factors `t`. -/
def qprod (n : Nat) (V : Nat → Nat → 𝕜) (t : Nat → 𝕜) : Nat → Matrix (Fin n) (Fin n) 𝕜
  | 0 => 1
  | k + 1 => qprod n V t k * reflector (hvec n V k) (t k)

/-- squared norm of column `j` of `A - B` -/
noncomputable def colErr {r c : Nat} (A B : Matrix (Fin r) (Fin c) 𝕜) (j : Fin c) : ℝ := ∑ i, ‖A i j - B i j‖ ^ 2

/-- `sgn` yields numbers of modulus one, and `x` differs from `sgn(x) |x|` by at most `e` in the squared modulus -/
structure SignFn (e : ℝ) (sgn : 𝕜 → 𝕜) : Prop where
  unit : ∀ x, ‖sgn x‖ = 1
  near : ∀ x, ‖x - sgn x * (‖x‖ : 𝕜)‖ ^ 2 ≤ e

/-- `p` is a permutation of `0, …, n - 1` -/
def ColPerm (n : Nat) (p : Nat → Nat) : Prop := (∀ j < n, p j < n) ∧ ∀ i < n, ∀ j < n, p i = p j → i = j

/-- the array for the pivots is missing or has room for them -/
def PivRoom (n : Nat) : Option (Arr Nat) → Prop
  | none => True
  | some q => n ≤ q.n

/-- the recorded pivots, if any, are `p` -/
def Recorded (n : Nat) (p : Nat → Nat) : Option (Arr Nat) → Prop
  | none => True
  | some q => ∀ j < n, q.v j = p j

/-- matrix with the columns of `A` in the order `p` -/
def permCols (A : Nat → Nat → 𝕜) (p : Nat → Nat) : Nat → Nat → 𝕜 := fun i j => A i (p j)

/-- squared norm of column `j` -/
noncomputable def colSq {r c : Nat} (A : Matrix (Fin r) (Fin c) 𝕜) (j : Fin c) : ℝ := ∑ i, ‖A i j‖ ^ 2

/-- `x` is admitted by the truncation strategy: absolute tolerance, tolerance relative to the Frobenius norm, or relative to the
largest norm of a column (which is a lower bound of the spectral norm). -/
def RankTol (tm : Option Dense.TMode) {r c : Nat} (A : Matrix (Fin r) (Fin c) 𝕜) (eps x : ℝ) : Prop :=
  match tm with
  | some ⟨_, true⟩ => x ≤ eps ^ 2
  | some ⟨true, false⟩ => x ≤ eps ^ 2 * ∑ j, colSq A j
  | _ => ∀ M, 0 ≤ M → (∀ j, colSq A j ≤ M) → x ≤ eps ^ 2 * M

/-- Every diagonal element of `R` is at least as large (up to `tiny`) as what the columns behind it have in the rows from there on. -/
def DiagDominates {r c : Nat} (k : Nat) (tiny : ℝ) (R : Matrix (Fin r) (Fin c) 𝕜) : Prop :=
  ∀ (l : Nat) (hr : l < r) (hc : l < c), l < k → ∀ j : Fin c, l ≤ j.1 → ∑ i : Fin r, (if l ≤ i.1 then ‖R i j‖ ^ 2 else 0) ≤ max (‖R ⟨l, hr⟩ ⟨l, hc⟩‖ ^ 2) tiny

end H2.Spec
