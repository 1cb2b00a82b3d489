import Verif.Model.KrylovSolve
import Verif.Spec.Krylov

/-! # Specifications for the solvers (C62) -/

namespace H2.Spec
variable {𝕜 : Type} [RCLike 𝕜]

/-- Euclidean norm of the first `n` entries -/
noncomputable def nrm (n : Nat) (f : Nat → 𝕜) : ℝ := Real.sqrt (∑ i ∈ Finset.range n, ‖f i‖ ^ 2)

/-- new vectors: their cells have not been allocated, and no two of them overlap -/
def FreshVecs (m : Mem 𝕜) (l : List Vec) : Prop := (∀ v ∈ l, ∀ c, v.Cell c → m c = none) ∧ l.Pairwise fun v w => Disj v.Cell w.Cell

/-- `y` minimises the energy in the Krylov space of `k` dimensions generated by the preconditioned residual of `x0` -/
def CgIterate (n : Nat) (A : Nat → Nat → 𝕜) (N : (Fin n → 𝕜) → Fin n → 𝕜) (b x0 : Nat → 𝕜) (k : Nat) (y : Nat → 𝕜) : Prop :=
  InAffine n k x0 (kry n A N fun i => b i - mv n A x0 i) y ∧
  ∀ z, InAffine n k x0 (kry n A N fun i => b i - mv n A x0 i) z → energy n A b y ≤ energy n A b z

/-- outcome of a solver that started in memory `m` and returned `iter` and the memory `m'` -/
structure Solved (n : Nat) (A : Nat → Nat → 𝕜) (N : (Fin n → 𝕜) → Fin n → 𝕜) (b x : Vec) (eps : ℝ) (maxiter : Nat) (m : Mem 𝕜) (iter : Nat) (m' : Mem 𝕜) : Prop where
  /-- no more steps than unknowns -/
  steps : iter ≤ n
  /-- fewer than `maxiter` steps, unless `maxiter` is zero -/
  limit : maxiter ≠ 0 → iter < maxiter
  /-- the tolerance has been reached, or the limit -/
  stop : nrm n (fun i => b.val m i - mv n A (x.val m') i) ≤ eps * nrm n (b.val m) ∨ iter + 1 = maxiter
  /-- the result is optimal in the Krylov space -/
  optimal : CgIterate n A N (b.val m) (x.val m) iter (x.val m')
  /-- the iteration did not stop too late: the optimal vectors of smaller Krylov spaces do not reach the tolerance -/
  needed : ∀ k < iter, ∀ y, CgIterate n A N (b.val m) (x.val m) k y → eps * nrm n (b.val m) < nrm n (fun i => b.val m i - mv n A y i)
  /-- only `x` has changed, and the auxiliary memory has been released -/
  frame : Frame x.Cell m m'

end H2.Spec
