import Verif.Model.Trunc
import Verif.Spec.Harith
import Verif.Spec.QR

/-! # Specifications for the truncation of low-rank matrices (C63) -/

namespace H2.Spec
variable {𝕜 : Type} [RCLike 𝕜]

/-- squared Euclidean norm of `(x_0, …, x_{n-1})` -/
def vecSq (n : Nat) (x : Nat → 𝕜) : ℝ := ∑ i ∈ Finset.range n, ‖x i‖ ^ 2

/-- squared Frobenius norm of the leading `rows × cols` block -/
def frobSq (rows cols : Nat) (M : Nat → Nat → 𝕜) : ℝ := ∑ j ∈ Finset.range cols, vecSq rows fun i => M i j

/-- matrix-vector product -/
def matVec (cols : Nat) (M : Nat → Nat → 𝕜) (x : Nat → 𝕜) (i : Nat) : 𝕜 := ∑ j ∈ Finset.range cols, M i j * x j

/-- `B` is an upper bound of the square of the spectral norm -/
def SpecBound (rows cols : Nat) (M : Nat → Nat → 𝕜) (B : ℝ) : Prop := ∀ x, vecSq rows (matVec cols M x) ≤ B * vecSq cols x

/-- `N` approximates `M` with the accuracy `eps` demanded by the truncation mode: in the Frobenius or the spectral norm, with an absolute error or
with an error relative to the norm of `M` -/
def CloseTo (tm : Option Trunc.Mode) (eps : ℝ) (rows cols : Nat) (M N : Nat → Nat → 𝕜) : Prop :=
  match tm with
  | some ⟨true, true⟩ => frobSq rows cols (fun i j => M i j - N i j) ≤ eps ^ 2
  | some ⟨true, false⟩ => frobSq rows cols (fun i j => M i j - N i j) ≤ eps ^ 2 * frobSq rows cols M
  | some ⟨false, true⟩ => SpecBound rows cols (fun i j => M i j - N i j) (eps ^ 2)
  | some ⟨false, false⟩ | none => ∀ B, 0 ≤ B → SpecBound rows cols M B → SpecBound rows cols (fun i j => M i j - N i j) (eps ^ 2 * B)

/-- entries of `X Y^*` with `k` columns in both factors -/
def lowRank (k : Nat) (X Y : Nat → Nat → 𝕜) (i j : Nat) : 𝕜 := ∑ l ∈ Finset.range k, X i l * star (Y j l)

/-- `r` is a low-rank representation of an approximation of `M` of the demanded accuracy, and no matrix of a lower rank is of this accuracy. -/
structure Truncated (tm : Option Trunc.Mode) (eps : ℝ) (rows cols : Nat) (M : Nat → Nat → 𝕜) (r : VRk 𝕜) : Prop where
  ok : RkOk r
  rows_eq : r.A.rows = rows
  cols_eq : r.B.rows = cols
  rank : r.k ≤ min rows cols
  close : CloseTo tm eps rows cols M (rkVal r)
  least : ∀ k < r.k, ∀ X Y, ¬ CloseTo tm eps rows cols M (lowRank k X Y)

/-- columns `0, …, k-1` are orthonormal -/
def OrthCols (n k : Nat) (U : Nat → Nat → 𝕜) : Prop :=
  ∀ l < k, ∀ l' < k, ∑ i ∈ Finset.range n, star (U i l) * U i l' = if l = l' then 1 else 0

/-- `c = U diag(s) V^*` is a singular value decomposition with `K` terms -/
structure SvdForm (rows cols K : Nat) (M : Nat → Nat → 𝕜) (s : Nat → ℝ) (U V : Nat → Nat → 𝕜) : Prop where
  orthU : OrthCols rows K U
  orthV : OrthCols cols K V
  nonneg : ∀ l < K, 0 ≤ s l
  dec : ∀ l l', l ≤ l' → l' < K → s l' ≤ s l
  eq : ∀ i < rows, ∀ j < cols, M i j = ∑ l ∈ Finset.range K, U i l * (s l : 𝕜) * star (V j l)

/-- the function `svd_amatrix` computes a singular value decomposition of every matrix -/
def SvdFn (svd : VMat 𝕜 → R (Arr ℝ × VMat 𝕜 × VMat 𝕜)) : Prop :=
  ∀ c, ∃ sigma u vt, svd c = .ok (sigma, u, vt) ∧ sigma.n = min c.rows c.cols ∧ u.rows = c.rows ∧ u.cols = min c.rows c.cols ∧
    vt.rows = min c.rows c.cols ∧ vt.cols = c.cols ∧ SvdForm c.rows c.cols (min c.rows c.cols) c.e sigma.v u.e (fun j l => star (vt.e l j))

/-- the factorizations are carried out exactly -/
structure ExactEnv (env : TrEnv 𝕜) : Prop where
  sgn : SignFn 0 env.sgn
  tiny : env.tiny = 0
  svd : SvdFn env.svd

end H2.Spec
