import Verif.Spec.Dense
import Mathlib.Analysis.SpecialFunctions.Log.Basic
import Mathlib.Analysis.Real.Sqrt
import Mathlib.Analysis.Calculus.Deriv.Basic

namespace H2.Spec

/-- `-0.159... log |x - y|`, the fundamental solution in two dimensions with the factor `-1 / (2 pi)` rounded as in the code -/
noncomputable def g2 (x y : ℝ × ℝ) : ℝ := -0.159154943091895336 * Real.log (Real.sqrt ((x.1 - y.1) ^ 2 + (x.2 - y.2) ^ 2))

/-- `1 / |x - y|`, the fundamental solution in three dimensions without its factor -/
noncomputable def g3 (x y : Fin 3 → ℝ) : ℝ := 1 / Real.sqrt (∑ i, (x i - y i) ^ 2)

variable {P : Type} [AddCommGroup P] [Module ℝ P]

/-- derivative of `g` in the direction `n` in the first argument -/
noncomputable def d1 (g : P → P → ℝ) (n x y : P) : ℝ := deriv (fun t : ℝ => g (x + t • n) y) 0
/-- derivative of `g` in the direction `n` in the second argument -/
noncomputable def d2 (g : P → P → ℝ) (n x y : P) : ℝ := deriv (fun t : ℝ => g x (y + t • n)) 0
/-- derivative of `g` in the direction `n1` in the first argument and `n2` in the second -/
noncomputable def d12 (g : P → P → ℝ) (n1 n2 x y : P) : ℝ := d1 (d2 g n2) n1 x y

/-- the point of the segment from `A` to `B` with parameter `t` -/
noncomputable def segPoint (A B : ℝ × ℝ) (t : ℝ) : ℝ × ℝ := (A.1 * (1 - t) + B.1 * t, A.2 * (1 - t) + B.2 * t)

end H2.Spec
