import Verif.Model.Cluster

/-!
Specification vocabulary for cluster trees (C05-C12).  Only the data type `Cluster` is used, none of the
modelled functions.
-/

namespace H2.Spec
variable {K : Type _}

mutual
/-- All clusters of the tree, fathers before sons, sons in order (preorder). -/
def nodes : Cluster K → List (Cluster K)
  | .mk i s => .mk i s :: nodesL s
def nodesL : List (Cluster K) → List (Cluster K)
  | [] => []
  | s :: ss => nodes s ++ nodesL ss
end

mutual
/-- The clusters without sons, from left to right. -/
def leaves : Cluster K → List (Cluster K)
  | .mk i [] => [.mk i []]
  | .mk _ (s :: ss) => leaves s ++ leavesL ss
def leavesL : List (Cluster K) → List (Cluster K)
  | [] => []
  | s :: ss => leaves s ++ leavesL ss
end

/-- `LeafAt t d`: there is a leaf at distance `d` from the root `t`. -/
inductive LeafAt : Cluster K → Nat → Prop where
  | here {i : CInfo K} : LeafAt (.mk i []) 0
  | down {i : CInfo K} {ss : List (Cluster K)} {s : Cluster K} {d : Nat} :
      s ∈ ss → LeafAt s d → LeafAt (.mk i ss) (d + 1)

/-- The clusters in the list are non-empty and occupy consecutive segments of positions from `a` to `b`. -/
def Tiles : Nat → List (Cluster K) → Nat → Prop
  | a, [], b => a = b
  | a, s :: ss, b => s.off = a ∧ 0 < s.size ∧ Tiles (a + s.size) ss b

/-- The sons of every cluster in the tree split the positions of their father into consecutive non-empty
segments. -/
def Consistent (t : Cluster K) : Prop :=
  ∀ s ∈ nodes t, s.sons ≠ [] → Tiles s.off s.sons (s.off + s.size)

/-- Every `desc` field is the number of clusters in the subtree. -/
def DescExact (t : Cluster K) : Prop := ∀ s ∈ nodes t, s.desc = (nodes s).length

/-- Positions listed by the leaves, from left to right. -/
def leafPositions (t : Cluster K) : List Nat :=
  (leaves t).flatMap fun s => List.range' s.off s.size

/-- Follow a path of son numbers from the root. -/
def atPath : Cluster K → List Nat → Option (Cluster K)
  | t, [] => some t
  | .mk _ ss, i :: p => match ss[i]? with
    | none => none
    | some s => atPath s p

/-- Segment and box found at the end of a path; `none` if the path leaves the tree. -/
def dataAt (t : Cluster K) (p : List Nat) : Option (Nat × Nat × Nat × (Nat → K) × (Nat → K)) :=
  (atPath t p).map fun s => (s.info.off, s.info.size, s.info.dim, s.info.bmin, s.info.bmax)

/-- In the trace `r`, an occurrence of `a` precedes an occurrence of `b`. -/
def Precedes {α : Type _} (r : List α) (a b : α) : Prop := List.Sublist [a, b] r

end H2.Spec
