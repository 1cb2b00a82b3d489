import Verif.Model.Gmres
import Verif.Spec.KrylovSolve
import Mathlib.Order.ConditionallyCompleteLattice.Basic

/-! # Specifications for GMRES (C66) -/

namespace H2.Spec
open Krylov

/-- squared Euclidean norm of the preconditioned residual `N (b - A y)` -/
noncomputable def resSq (n : Nat) (A : Nat → Nat → ℝ) (N : (Fin n → ℝ) → Fin n → ℝ) (b y : Nat → ℝ) : ℝ :=
  ∑ i ∈ Finset.range n, ext N (fun i => b i - mv n A y i) i ^ 2

/-- the smallest squared norm of a residual in the affine space `x + span {w 0, …, w (k - 1)}`, where `w l = (N A)^l N (b - A x)` -/
noncomputable def minRes (n : Nat) (A : Nat → Nat → ℝ) (N : (Fin n → ℝ) → Fin n → ℝ) (b x : Nat → ℝ) (k : Nat) : ℝ :=
  sInf {s | ∃ y, InAffine n k x (kry n A N fun i => b i - mv n A x i) y ∧ resSq n A N b y = s}

/-- Each of the first `k` steps reduces the minimal squared residual, and no step exactly halves it. -/
def Regular (n : Nat) (A : Nat → Nat → ℝ) (N : (Fin n → ℝ) → Fin n → ℝ) (b x : Nat → ℝ) (k : Nat) : Prop :=
  ∀ j < k, minRes n A N b x (j + 1) < minRes n A N b x j ∧ 2 * minRes n A N b x (j + 1) ≠ minRes n A N b x j

/-- the vectors of the method and the columns of the matrix `qr` -/
inductive GVar (kmax : Nat) | b | x | rhat | q | col (j : Fin kmax)
deriving DecidableEq

/-- the corresponding windows of the memory -/
def gvec (b x rhat q : Vec) (qr : Mat) : GVar qr.cols → Vec
  | .b => b
  | .x => x
  | .rhat => rhat
  | .q => q
  | .col j => ⟨qr.base + j * qr.ld, qr.rows⟩

/-- the vectors have `n` entries, `qr` has `n` rows; they are allocated and overlap neither each other nor the cells `C` -/
structure GmresVars (n : Nat) (C : Nat → Prop) (b x rhat q : Vec) (qr : Mat) (m : Mem ℝ) : Prop where
  rows : qr.rows = n
  ld : qr.rows ≤ qr.ld
  sep : Separate C (gvec b x rhat q qr) (fun _ => n) m

/-- `y` is in the Krylov space of dimension `k` and minimises the residual there -/
def GmresIterate (n : Nat) (A : Nat → Nat → ℝ) (N : (Fin n → ℝ) → Fin n → ℝ) (b x : Nat → ℝ) (k : Nat) (y : Nat → ℝ) : Prop :=
  InAffine n k x (kry n A N fun i => b i - mv n A x i) y ∧
  ∀ z, InAffine n k x (kry n A N fun i => b i - mv n A x i) z → resSq n A N b y ≤ resSq n A N b z

/-- The states that the restarted method with at most `kmax - 1` steps per cycle can reach: after `i` steps, the current cycle has started with the vector `y` and has performed `k` steps.
A new cycle starts with an optimal vector of the last one. -/
inductive GmresRun (n : Nat) (A : Nat → Nat → ℝ) (N : (Fin n → ℝ) → Fin n → ℝ) (b x : Nat → ℝ) (kmax : Nat) (tol : ℝ) : Nat → (Nat → ℝ) → Nat → Prop
  | start : GmresRun n A N b x kmax tol 0 x 0
  | step {i y k} : GmresRun n A N b x kmax tol i y k → tol < √(minRes n A N b y k) → k + 1 < kmax → GmresRun n A N b x kmax tol (i + 1) y (k + 1)
  | restart {i y k y'} : GmresRun n A N b x kmax tol i y k → tol < √(minRes n A N b y k) → ¬ k + 1 < kmax → GmresIterate n A N b y k y' → GmresRun n A N b x kmax tol i y' 0

/-- As long as the tolerance has not been reached, each step reduces the minimal squared residual, no step exactly halves it, and no cycle has more than `n - 1` steps. -/
def RegularRun (n : Nat) (A : Nat → Nat → ℝ) (N : (Fin n → ℝ) → Fin n → ℝ) (b x : Nat → ℝ) (kmax : Nat) (tol : ℝ) (maxiter : Nat) : Prop :=
  ∀ i y k, GmresRun n A N b x kmax tol i y k → i + 1 < maxiter → k + 1 < kmax → tol < √(minRes n A N b y k) →
    k + 1 < n ∧ minRes n A N b y (k + 1) < minRes n A N b y k ∧ 2 * minRes n A N b y (k + 1) ≠ minRes n A N b y k

/-- outcome of a solver that started in memory `m` and returned `iter` and the memory `m'` -/
structure GmresSolved (n : Nat) (A : Nat → Nat → ℝ) (N : (Fin n → ℝ) → Fin n → ℝ) (b x : Vec) (kmax : Nat) (tol : ℝ) (maxiter : Nat) (m : Mem ℝ) (iter : Nat) (m' : Mem ℝ) : Prop where
  /-- fewer than `maxiter` steps -/
  limit : iter < maxiter
  /-- the tolerance has been reached, or the limit -/
  stop : √(resSq n A N (b.val m) (x.val m')) ≤ tol ∨ iter + 1 = maxiter
  /-- the result is optimal in the Krylov space of the last cycle -/
  optimal : ∃ y k, GmresRun n A N (b.val m) (x.val m) kmax tol iter y k ∧ GmresIterate n A N (b.val m) y k (x.val m')
  /-- only `x` has changed, and the auxiliary memory has been released -/
  frame : Frame x.Cell m m'

end H2.Spec
