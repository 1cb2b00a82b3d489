import Verif.Model.Cluster
import Mathlib.Analysis.InnerProductSpace.PiL2

/-! Geometry of boxes (C18). -/

namespace H2.Spec

/-- `x` lies in the bounding box of the cluster. -/
def InBox (t : CInfo ℝ) (x : Nat → ℝ) : Prop := ∀ i < t.dim, t.bmin i ≤ x i ∧ x i ≤ t.bmax i

/-- The box is not empty. -/
def BoxOK (t : CInfo ℝ) : Prop := ∀ i < t.dim, t.bmin i ≤ t.bmax i

/-- Euclidean norm of the first `n` components. -/
noncomputable def norm2 (n : Nat) (v : Nat → ℝ) : ℝ := Real.sqrt (∑ i ∈ Finset.range n, v i ^ 2)

/-- Maximum norm of the first `n` components. -/
noncomputable def normMax (n : Nat) (v : Nat → ℝ) : ℝ := (Finset.range n).fold max 0 (fun i => |v i|)

/-- The diameter of `t`'s box is at most `eta` times its distance to `s`'s box: no two points of `t`'s box are
further apart than `eta` times the distance of any point of `t`'s box to any point of `s`'s box. -/
def DiamLe (norm : (Nat → ℝ) → ℝ) (eta : ℝ) (t s : CInfo ℝ) : Prop :=
  ∀ x x' z y, InBox t x → InBox t x' → InBox t z → InBox s y →
    norm (fun i => x i - x' i) ≤ eta * norm (fun i => z i - y i)

/-- The box of `t'` is contained in the box of `t`. -/
def SubBox (t' t : CInfo ℝ) : Prop := t'.dim = t.dim ∧ ∀ i < t.dim, t.bmin i ≤ t'.bmin i ∧ t'.bmax i ≤ t.bmax i

end H2.Spec
