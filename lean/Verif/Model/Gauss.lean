import Verif.Model.Eigen

/-!
# Gauss quadrature (`Library/gaussquad.c`)

Exact arithmetic.  The eigenvalue solver is a parameter of `assembleWith`; `assemble` uses the library's own solver (code without BLAS).
-/

namespace H2
namespace Gauss
open Eig
variable {𝕜 : Type} [RCLike 𝕜]

/-- gaussquad.c:21: the upper bound `m - 1` of the second loop in 32-bit unsigned arithmetic -/
def predU (m : Nat) : Nat := if m = 0 then 2 ^ 32 - 1 else m - 1

/-- gaussquad.c:18-22: the Jacobi matrix; the new storage holds `junk`. -/
noncomputable def jacobi (junk : Nat → ℝ) (m : Nat) : R Tri := do
  let T := initTri junk m
  let d ← forUp 0 m (fun i (d : Arr ℝ) => d.set i 0) T.d
  let l ← forUp 0 (predU m) (fun i (l : Arr ℝ) =>
    l.set i (((i : ℝ) + 1) / √((2 * (i : ℝ) + 1) * (2 * (i : ℝ) + 3)))) T.l
  pure ⟨d, T.u, l⟩

/-- gaussquad.c:29-32: nodes and weights from eigenvalues and eigenvectors -/
noncomputable def readOff (m : Nat) (T : Tri) (Q : VMat 𝕜) (x w : Arr ℝ) : R (Arr ℝ × Arr ℝ) :=
  forUp 0 m (fun i (s : Arr ℝ × Arr ℝ) => do
    let t ← T.d.get i
    let x ← s.1.set i t
    let q ← Q.get 0 i
    let w ← s.2.set i (2 * ‖q‖ ^ 2)
    pure (x, w)) (x, w)

/-- gaussquad.c:12-37 `assemble_gauss(m, x, w)` with the eigenvalue solver `eig` in place of `eig_tridiag` -/
noncomputable def assembleWith (eig : Tri → Option (VMat 𝕜) → R (Tri × Option (VMat 𝕜) × Nat)) (junk : Nat → ℝ) (junkQ : Nat → Nat → 𝕜) (m : Nat)
    (x w : Arr ℝ) : R (Arr ℝ × Arr ℝ) := do
  let T ← jacobi junk m
  let (T, Q, info) ← eig T (some ⟨m, m, junkQ⟩)
  cassert (info = 0)
  match Q with
  | none => throw .ub
  | some Q => readOff m T Q x w

/-- gaussquad.c:12-37 `assemble_gauss(m, x, w)` with the library's own eigenvalue solver (eigensolvers.c:736-743) -/
noncomputable def assemble (eps : ℝ) (junk : Nat → ℝ) (junkQ : Nat → Nat → 𝕜) (m : Nat) (x w : Arr ℝ) : R (Arr ℝ × Arr ℝ) :=
  assembleWith (eigTri eps) junk junkQ m x w

end Gauss
end H2
