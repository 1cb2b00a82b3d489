import Verif.Model.Tridiag

/-!
# Eigenvalues of self-adjoint dense matrices (`Library/eigensolvers.c`, code without BLAS)

Conventions as in `Verif.Model.Eigen` and `Verif.Model.Tridiag`.
-/

namespace H2
namespace Eig
open Krylov
variable {𝕜 : Type} [RCLike 𝕜]

/-- realavector.c:139-149 `resize_realavector(v, dim)`; new storage holds `junk`. -/
def resizeReal (junk : Nat → ℝ) (v : Arr ℝ) (dim : Nat) : Arr ℝ := if dim ≠ v.n then ⟨dim, junk⟩ else v

/-- eigensolvers.c:976-1014 `sb_eig_amatrix(A, lambda, Q, maxiter)`: new values of `A`, `lambda`, `Q` and the number of iterations.  `fuel` is needed only
for `maxiter = 0`, where the number of iterations is not limited. -/
noncomputable def sbEig (sgn : 𝕜 → 𝕜) (tiny eps : ℝ) (junk : Nat → ℝ) (fuel : Nat) (A : VMat 𝕜) (lambda : Arr ℝ) (Q : Option (VMat 𝕜)) (maxiter : Nat) :
    R (VMat 𝕜 × Arr ℝ × Option (VMat 𝕜) × Nat) := do
  let n := A.rows
  cassert (decide (A.cols = n))
  cassert (decide (∀ q ∈ Q, q.rows = n))
  cassert (decide (∀ q ∈ Q, q.cols = n))
  let T := initTri junk n
  let (A, T, Q) ← tridiagonalize sgn tiny A T Q
  let (T, Q, iter) ← muleig eps fuel T Q maxiter
  let lambda := if lambda.n < n then resizeReal junk lambda n else lambda
  let lambda ← forUp 0 n (fun i lambda => do
    let x ← T.d.get i
    lambda.set i x) lambda
  pure (A, lambda, Q, iter)

/-- eigensolvers.c:1099-1111 `eig_amatrix(A, lambda, Q)` (version without BLAS); the last component is the result of the function. -/
noncomputable def eigMat (sgn : 𝕜 → 𝕜) (tiny eps : ℝ) (junk : Nat → ℝ) (A : VMat 𝕜) (lambda : Arr ℝ) (Q : Option (VMat 𝕜)) :
    R (VMat 𝕜 × Arr ℝ × Option (VMat 𝕜) × Nat) := do
  cassert (decide (A.rows = A.cols))
  let maxiter := 32 * A.rows
  let (A, lambda, Q, iter) ← sbEig sgn tiny eps junk maxiter A lambda Q maxiter
  pure (A, lambda, Q, if iter < maxiter then 0 else 1)

end Eig
end H2
