import Verif.Spec.ClusterBuild
import Verif.Spec.Sparse

/-! Specification vocabulary for domain decomposition clustering (C69). -/

namespace H2.Spec
variable {K : Type _}

/-- position `p` belongs to the cluster -/
def InCl (t : Cluster K) (p : Nat) : Prop := t.off ≤ p ∧ p < t.off + t.size

/-- `conn p q`: row position `p` is connected to column position `q`. No position of `t` is connected to a position of `s`. -/
def Separated (conn : Nat → Nat → Prop) (t s : Cluster K) : Prop := ∀ p q, InCl t p → InCl s q → ¬ conn p q

/-- Domain decomposition: all clusters outside of interfaces have type 1; a cluster with at least two sons has two domain sons, the second one not connected to the first one; if there is a third son, all clusters
in it have type 2 and every position in it is connected to the first son (so nothing is put into the interface without need). -/
inductive DdTree (conn : Nat → Nat → Prop) : Cluster K → Prop where
  | leaf {i : CInfo K} : i.type = 1 → DdTree conn (.mk i [])
  | one {i : CInfo K} {s : Cluster K} : i.type = 1 → DdTree conn s → DdTree conn (.mk i [s])
  | two {i : CInfo K} {s0 s1 : Cluster K} : i.type = 1 → DdTree conn s0 → DdTree conn s1 → Separated conn s1 s0 →
      DdTree conn (.mk i [s0, s1])
  | three {i : CInfo K} {s0 s1 s2 : Cluster K} : i.type = 1 → DdTree conn s0 → DdTree conn s1 → Separated conn s1 s0 →
      (∀ u ∈ nodes s2, u.info.type = 2) → (∀ p, InCl s2 p → ∃ q, InCl s0 q ∧ conn p q) → DdTree conn (.mk i [s0, s1, s2])

/-- A set of more than `clf` positions is cut by a coordinate plane into two non-empty parts and every position on the right side of the plane is connected to one on the left side. -/
def Inseparable (x : Nat → Nat → K) [LT K] (dim clf : Nat) (conn : Nat → Nat → Prop) (idx : Nat → Nat) (off size : Nat) : Prop :=
  ∃ S : Finset Nat, (∀ p ∈ S, off ≤ p ∧ p < off + size) ∧ clf < S.card ∧ ∃ d < dim, ∃ m : K,
    (∃ p ∈ S, x (idx p) d < m) ∧ (∃ p ∈ S, ¬ x (idx p) d < m) ∧
    ∀ p ∈ S, ¬ x (idx p) d < m → ∃ q ∈ S, x (idx q) d < m ∧ conn (idx p) (idx q)

end H2.Spec
