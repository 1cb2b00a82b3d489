import Verif.Spec.Eigen
import Verif.Model.Gauss
import Mathlib.Analysis.CStarAlgebra.Matrix
import Mathlib.Analysis.SpecialFunctions.Integrals.Basic

/-! Specifications for Gauss quadrature (C78). -/

namespace H2.Spec
open scoped Matrix.Norms.L2Operator

/-- the value of the quadrature rule with `m` nodes `x` and weights `w` for the polynomial `p` -/
noncomputable def quadRule (m : Nat) (x w : Nat → ℝ) (p : Polynomial ℝ) : ℝ := ∑ i ∈ Finset.range m, w i * p.eval (x i)

/-- the integral of the polynomial `p` over `[-1, 1]` -/
noncomputable def integralP (p : Polynomial ℝ) : ℝ := ∫ t in (-1 : ℝ)..1, p.eval t

/-- The quadrature rule is exact for all polynomials of degree less than `2 m`. -/
def ExactRule (m : Nat) (x w : Nat → ℝ) : Prop := ∀ p : Polynomial ℝ, p.degree < (2 * m : Nat) → quadRule m x w p = integralP p

/-- contract of an eigenvalue solver with relative backward error `η`: it may fail, and if it returns `0`, the entries of the diagonal and the matrix
`Q` form an eigenvalue decomposition up to the error, with an orthogonal matrix and ascending eigenvalues -/
def EigSolver {𝕜 : Type} [RCLike 𝕜] (m : Nat) (η : ℝ) (eig : Eig.Tri → Option (VMat 𝕜) → R (Eig.Tri × Option (VMat 𝕜) × Nat)) : Prop :=
  ∀ (T : Eig.Tri) (q : VMat 𝕜), T.d.n = m → m - 1 ≤ T.l.n → q.rows = m → q.cols = m →
    ∀ T' Q', eig T (some q) = .ok (T', Q', 0) → T'.d.n = m ∧ ∃ q', Q' = some q' ∧ q'.rows = m ∧ q'.cols = m ∧
      ∃ W : Matrix (Fin m) (Fin m) ℝ, W * W.transpose = 1 ∧ (∀ i j : Fin m, q'.e i j = (W i j : 𝕜)) ∧
        (∀ i j, i < j → j < m → T'.d.v i ≤ T'.d.v j) ∧
        ‖W * (Matrix.diagonal fun i : Fin m => T'.d.v i) * W.transpose - triMat m T.d.v T.l.v‖ ≤ η * ‖triMat m T.d.v T.l.v‖

end H2.Spec
