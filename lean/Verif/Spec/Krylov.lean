import Verif.Model.Krylov
import Verif.Spec.Dense
import Verif.Core.Sums
import Mathlib.Analysis.RCLike.Basic
import Mathlib.LinearAlgebra.Matrix.PosDef

/-! # Specifications for Krylov methods -/

namespace H2.Spec
open Krylov
variable {K : Type} [Field K] [StarRing K]

/-- As long as the cells `C` (the representation of the matrix) hold the same values as in `m0`, and the vectors do not overlap
`C`, the callback adds `alpha A x` to `y` and changes nothing else. -/
def IsAddEval (f : AddEval K) (n : Nat) (A : Nat → Nat → K) (C : Nat → Prop) (m0 : Mem K) : Prop :=
  ∀ (alpha : K) (x y : Vec) (m : Mem K), (∀ c, C c → m c = m0 c) → Disj x.Cell C → Disj y.Cell C →
    x.Valid m → y.Valid m → x.dim = n → y.dim = n → Disj x.Cell y.Cell →
    Tot (f alpha x y m) (VecBecomes y m fun i => y.val m i + alpha * ∑ j ∈ Finset.range n, A i j * x.val m j)

/-- the same for a callback that adds `alpha A x` or `alpha A^* x` to `y`, for an `n2 × n1` matrix `A` -/
def IsMvm (f : MvmCb K) (n2 n1 : Nat) (A : Nat → Nat → K) (C : Nat → Prop) (m0 : Mem K) : Prop :=
  ∀ (alpha : K) (trans : Bool) (x y : Vec) (m : Mem K), (∀ c, C c → m c = m0 c) → Disj x.Cell C → Disj y.Cell C → x.Valid m → y.Valid m → x.dim = (if trans then n2 else n1) →
    y.dim = (if trans then n1 else n2) → Disj x.Cell y.Cell →
    Tot (f alpha trans x y m) (VecBecomes y m fun i => y.val m i +
      alpha * ∑ j ∈ Finset.range (if trans then n2 else n1), op trans A i j * x.val m j)

/-- the first `n` entries as a vector -/
def vec (n : Nat) (u : Nat → K) : Fin n → K := fun i => u i

/-- the same for a callback that replaces `x` by `N x` -/
def IsPrcd (f : Prcd K) (n : Nat) (N : (Fin n → K) → Fin n → K) (C : Nat → Prop) (m0 : Mem K) : Prop :=
  ∀ (x : Vec) (m : Mem K), (∀ c, C c → m c = m0 c) → Disj x.Cell C → x.Valid m → x.dim = n →
    Tot (f x m) fun m' => x.Valid m' ∧ Frame x.Cell m m' ∧ vec n (x.val m') = N (vec n (x.val m))

/-- an optional preconditioner; none means the identity -/
def IsPrcdOpt (f : Option (Prcd K)) (n : Nat) (N : (Fin n → K) → Fin n → K) (C : Nat → Prop) (m0 : Mem K) : Prop :=
  match f with
  | some f => IsPrcd f n N C m0
  | none => N = id

/-- the vectors are allocated, do not overlap the cells `C`, have `dim i` entries, and no two of them overlap -/
def Separate {ι : Type} (C : Nat → Prop) (v : ι → Vec) (dim : ι → Nat) (m : Mem K) : Prop :=
  (∀ i, ((v i).Valid m ∧ Disj (v i).Cell C) ∧ (v i).dim = dim i) ∧ ∀ i j, i ≠ j → Disj (v i).Cell (v j).Cell

/-- nothing but the vectors has changed -/
def OnlyVectors {ι : Type} (v : ι → Vec) (m m' : Mem K) : Prop := ∀ c, (∀ i, ¬ (v i).Cell c) → m' c = m c

/-- `x = .error .nan` (division by zero) or a normal end with `P` -/
def NanOr {α : Type _} (x : R α) (P : α → Prop) : Prop := x = .error .nan ∨ Tot x P

/-- division by zero if `c` holds, a normal end with `P` if not -/
def NanIff {α : Type _} (x : R α) (c : Prop) (P : α → Prop) : Prop := (c ∧ x = .error .nan) ∨ (¬ c ∧ Tot x P)

/-- inner product of the first `n` entries -/
def ip (n : Nat) (f g : Nat → K) : K := ∑ i ∈ Finset.range n, star (f i) * g i
/-- product with a matrix with `n` columns -/
def mv (n : Nat) (A : Nat → Nat → K) (f : Nat → K) (i : Nat) : K := ∑ j ∈ Finset.range n, A i j * f j
/-- `N` applied to the first `n` entries -/
def ext {n : Nat} (N : (Fin n → K) → Fin n → K) (f : Nat → K) (i : Nat) : K := if h : i < n then N (vec n f) ⟨i, h⟩ else f i

/-- the matrix given by the leading `n` rows and columns -/
def mat (n : Nat) (A : Nat → Nat → K) : Matrix (Fin n) (Fin n) K := Matrix.of fun i j => A i j

/-- the vectors of `init_cg` and `step_cg` -/
inductive CgVar | b | x | r | p | a
deriving DecidableEq
/-- the vectors of `init_pcg` and `step_pcg` -/
inductive PcgVar | b | x | r | q | p | a
deriving DecidableEq
/-- the vectors of `init_uzawa` and `step_uzawa` -/
inductive UzVar | b1 | b2 | x1 | x2 | r2 | p2 | a1 | s2
deriving DecidableEq
/-- number of entries -/
def uzDim (n1 n2 : Nat) : UzVar → Nat
  | .b1 => n1 | .x1 => n1 | .a1 => n1 | _ => n2
/-- the vectors of `init_puzawa` and `step_puzawa` -/
inductive PuzVar | b1 | b2 | x1 | x2 | r2 | q2 | p2 | a1 | s2
deriving DecidableEq
/-- number of entries -/
def puzDim (n1 n2 : Nat) : PuzVar → Nat
  | .b1 => n1 | .x1 => n1 | .a1 => n1 | _ => n2
/-- the vectors of `init_bicg` and `step_bicg` -/
inductive BicgVar | b | x | r | rt | p | pt | a | at'
deriving DecidableEq
/-- the vectors of `init_bicgstab` and `step_bicgstab` -/
inductive StabVar | b | x | r | rt | p | a | as'
deriving DecidableEq

section cg
variable {𝕜 : Type} [RCLike 𝕜]

/-- the energy functional `⟨A x, x⟩ / 2 - Re ⟨b, x⟩` minimised by the solution of `A x = b` -/
noncomputable def energy (n : Nat) (A : Nat → Nat → 𝕜) (b x : Nat → 𝕜) : ℝ :=
  RCLike.re (ip n (mv n A x) x) / 2 - RCLike.re (ip n b x)

/-- the vectors `(N A)^l N r` spanning the Krylov space -/
def kry (n : Nat) (A : Nat → Nat → 𝕜) (N : (Fin n → 𝕜) → Fin n → 𝕜) (r : Nat → 𝕜) : Nat → Nat → 𝕜
  | 0 => ext N r
  | l + 1 => ext N (mv n A (kry n A N r l))

/-- `y` is in the affine space `x + span {w 0, …, w (k - 1)}` -/
def InAffine (n k : Nat) (x : Nat → 𝕜) (w : Nat → Nat → 𝕜) (y : Nat → 𝕜) : Prop :=
  ∃ c : Nat → 𝕜, ∀ i < n, y i = x i + ∑ l ∈ Finset.range k, c l * w l i

/-- the Schur complement `B X B^*` -/
def schur {n1 : Nat} (B : Nat → Nat → 𝕜) (X : Matrix (Fin n1) (Fin n1) 𝕜) (i j : Nat) : 𝕜 :=
  ∑ k : Fin n1, ∑ l : Fin n1, B i k * X k l * star (B j l)

/-- a run of a (preconditioned) conjugate gradient method: `run k` is the outcome of `k` steps started in `m`, `M k` the
memory after `k` steps, `x`, `r` and `p` hold the iterate, the residual and the direction.  The method runs for `K` steps and
then has the exact solution. -/
structure CgRun (n : Nat) (A : Nat → Nat → 𝕜) (N : (Fin n → 𝕜) → Fin n → 𝕜) (run : Nat → R (Mem 𝕜)) (b : Nat → 𝕜) (x r p : Vec) (m : Mem 𝕜)
    (K : Nat) (M : Nat → Mem 𝕜) : Prop where
  /-- the method never uses more than `n` steps -/
  steps : K ≤ n
  /-- no step fails -/
  ok : ∀ k ≤ K, run k = .ok (M k)
  /-- a further step would divide by zero -/
  nan : ∀ k > K, run k = .error .nan
  /-- the last iterate is the solution -/
  solved : ∀ i < n, mv n A (x.val (M K)) i = b i
  /-- no earlier iterate is -/
  unsolved : ∀ k < K, ∃ i < n, mv n A (x.val (M k)) i ≠ b i
  /-- the residuals are the residuals of the iterates -/
  res : ∀ k ≤ K, ∀ i < n, r.val (M k) i = b i - mv n A (x.val (M k)) i
  /-- the directions are conjugate -/
  conj : ∀ i j, i < j → j ≤ K → ip n (p.val (M i)) (mv n A (p.val (M j))) = 0
  /-- the residuals are orthogonal with respect to the preconditioner -/
  orth : ∀ i j, i < j → j ≤ K → ip n (ext N (r.val (M i))) (r.val (M j)) = 0
  /-- no direction vanishes -/
  dir : ∀ k < K, ∃ i < n, p.val (M k) i ≠ 0
  /-- the iterates are in the Krylov space of the preconditioned initial residual -/
  mem : ∀ k ≤ K, InAffine n k (x.val m) (kry n A N fun i => b i - mv n A (x.val m) i) (x.val (M k))
  /-- each iterate is the minimiser of the energy in this space -/
  min : ∀ k ≤ K, ∀ y, InAffine n k (x.val m) (kry n A N fun i => b i - mv n A (x.val m) i) y →
    (∃ i < n, y i ≠ x.val (M k) i) → energy n A b (x.val (M k)) < energy n A b y
  /-- the energy decreases in every step -/
  decr : ∀ k < K, energy n A b (x.val (M (k + 1))) < energy n A b (x.val (M k))

end cg

end H2.Spec
