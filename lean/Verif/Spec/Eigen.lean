import Verif.Model.Harith
import Mathlib.LinearAlgebra.Matrix.Notation
import Mathlib.Data.Matrix.Mul
import Mathlib.Analysis.RCLike.Basic

/-! Specifications for the eigenvalue solvers (C71). -/

namespace H2.Spec

/-- the symmetric tridiagonal matrix with diagonal `d` and subdiagonal `l` -/
def triMat (n : Nat) (d l : Nat → ℝ) : Matrix (Fin n) (Fin n) ℝ := fun i j =>
  if i.1 = j.1 then d i else if i.1 = j.1 + 1 then l j else if j.1 = i.1 + 1 then l i else 0

/-- `Q'` is the product of `Q` and `W`. -/
def QMul {𝕜 : Type} [RCLike 𝕜] {n : Nat} (Q : Option (VMat 𝕜)) (W : Matrix (Fin n) (Fin n) ℝ) (Q' : Option (VMat 𝕜)) : Prop :=
  match Q, Q' with
  | none, none => True
  | some Q, some Q' => Q'.rows = Q.rows ∧ Q'.cols = Q.cols ∧ ∀ r < Q.rows, ∀ j : Fin n, Q'.e r j = ∑ k : Fin n, Q.e r k * (W k j : 𝕜)
  | _, _ => False

end H2.Spec
