import Verif.Model.Norm2
import Verif.Spec.Admissible

/-! What it means that a callback multiplies by a matrix, and that a number bounds a matrix (C23, C53). -/

namespace H2.Norm
open Spec

/-- `mvm` multiplies by `A` and by its transpose, adding to `y`, provided the dimensions fit -/
def Computes (mvm : Mvm) (rows cols : Nat) (A : Nat → Nat → ℝ) : Prop :=
  (∀ (alpha : ℝ) (x y : Arr ℝ), x.n = cols → y.n = rows → Tot (mvm alpha false x y) fun y' => y'.n = y.n ∧
    ∀ i < rows, y'.v i = y.v i + alpha * ∑ j ∈ Finset.range cols, A i j * x.v j) ∧
  (∀ (alpha : ℝ) (x y : Arr ℝ), x.n = rows → y.n = cols → Tot (mvm alpha true x y) fun y' => y'.n = y.n ∧
    ∀ j < cols, y'.v j = y.v j + alpha * ∑ i ∈ Finset.range rows, A i j * x.v i)

/-- `M` bounds `A` and its transpose as maps of Euclidean spaces -/
def Bound (rows cols : Nat) (A : Nat → Nat → ℝ) (M : ℝ) : Prop :=
  (∀ x : Nat → ℝ, norm2 rows (fun i => ∑ j ∈ Finset.range cols, A i j * x j) ≤ M * norm2 cols x) ∧
  (∀ y : Nat → ℝ, norm2 cols (fun j => ∑ i ∈ Finset.range rows, A i j * y i) ≤ M * norm2 rows y)

end H2.Norm
