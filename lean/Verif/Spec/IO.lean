import Verif.Model.IO
import Verif.Spec.ClusterTree

/-! Specification vocabulary for files of trees. -/

namespace H2.Spec
variable {K : Type}

/-- the segments of the sons follow each other (empty segments allowed) -/
def Follow : Nat → List (Cluster K) → Nat → Prop
  | a, [], b => a = b
  | a, s :: ss, b => s.off = a ∧ Follow (a + s.size) ss b

/-- every cluster with sons is the concatenation of its sons' segments, and all clusters live in the same dimension -/
def Storable (d : Nat) (t : Cluster K) : Prop :=
  ∀ s ∈ nodes t, s.info.dim = d ∧ (s.sons ≠ [] → Follow s.off s.sons (s.off + s.size))

/-- `t'` is a copy of the tree `t` up to a shift of the index array by `o`: the same paths lead to clusters, the clusters have the same segments,
dimensions and boxes, and `desc` is the number of clusters of the subtree -/
def CopyOf (o : Nat) (t t' : Cluster K) : Prop :=
  ∀ p, match atPath t p, atPath t' p with
    | none, none => True
    | some s, some s' => s'.off + o = s.off ∧ s'.size = s.size ∧ s'.info.dim = s.info.dim ∧ s'.desc = (nodes s).length ∧
        ∀ j < s.info.dim, s'.info.bmin j = s.info.bmin j ∧ s'.info.bmax j = s.info.bmax j
    | _, _ => False

/-- no dimension or variable of the file has one of the names used for a cluster tree -/
def Unused (nm : String → String) (f : Nc.File K) : Prop :=
  (∀ s ∈ ["clusters", "coeffs", "totalsize", "dim"], f.dim (nm s) = none) ∧
    ∀ s ∈ ["sons", "size", "idx", "coeff"], f.ivar (nm s) = none ∧ f.rvar (nm s) = none

end H2.Spec
