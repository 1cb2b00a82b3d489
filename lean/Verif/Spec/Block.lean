import Verif.Model.BlockIter
import Verif.Spec.ClusterTree

/-! Specification vocabulary for block trees (C13-C17). -/

namespace H2.Spec
variable {K : Type _}

/-- All blocks of the tree, fathers before sons, sons column by column. -/
def bnodes : Block K → List (Block K)
  | .mk rc cc a d m n son =>
    .mk rc cc a d m n son ::
      (List.finRange n).flatMap fun j => (List.finRange m).flatMap fun i => bnodes (son i j)

/-- The blocks without sons. -/
def bleaves : Block K → List (Block K)
  | .mk rc cc a d m n son =>
    if m * n = 0 then [.mk rc cc a d m n son]
    else (List.finRange n).flatMap fun j => (List.finRange m).flatMap fun i => bleaves (son i j)

/-- The block contains the pair (row position, column position). -/
def Covers (b : Block K) (r c : Nat) : Prop :=
  b.rc.cl.off ≤ r ∧ r < b.rc.cl.off + b.rc.cl.size ∧ b.cc.cl.off ≤ c ∧ c < b.cc.cl.off + b.cc.cl.size

instance (r c : Nat) : DecidablePred fun b : Block K => Covers b r c :=
  fun _ => by unfold Covers; infer_instance

/-- `BlockTree rc cc b`: `b` is a block tree for the clusters `rc` and `cc`: leaves have no sons; otherwise the
row cluster or the column cluster or both are replaced by their sons. -/
inductive BlockTree : CRef K → CRef K → Block K → Prop where
  | leaf {rc cc : CRef K} {a : Bool} {d : Nat} {son : Fin 0 → Fin 0 → Block K} :
      BlockTree rc cc (.mk rc cc a d 0 0 son)
  | both {rc cc : CRef K} {a : Bool} {d : Nat} {son : Fin rc.nsons → Fin cc.nsons → Block K} :
      0 < rc.nsons → 0 < cc.nsons → (∀ i j, BlockTree (rc.son i) (cc.son j) (son i j)) →
      BlockTree rc cc (.mk rc cc a d rc.nsons cc.nsons son)
  | rows {rc cc : CRef K} {a : Bool} {d : Nat} {son : Fin rc.nsons → Fin 1 → Block K} :
      0 < rc.nsons → (∀ i j, BlockTree (rc.son i) cc (son i j)) →
      BlockTree rc cc (.mk rc cc a d rc.nsons 1 son)
  | cols {rc cc : CRef K} {a : Bool} {d : Nat} {son : Fin 1 → Fin cc.nsons → Block K} :
      0 < cc.nsons → (∀ i j, BlockTree rc (cc.son j) (son i j)) →
      BlockTree rc cc (.mk rc cc a d 1 cc.nsons son)

/-- Every `desc` field is the number of blocks in the subtree. -/
def BDescExact (b : Block K) : Prop := ∀ s ∈ bnodes b, s.desc = (bnodes s).length

/-- The leaves of `b` form a partition of rows × columns: they are subsets of it, and every pair of positions lies
in exactly one of them. -/
def LeavesTile (b : Block K) : Prop :=
  (∀ s ∈ bleaves b, ∀ r c, Covers s r c → Covers b r c) ∧
  ∀ r c, Covers b r c → (bleaves b).countP (fun s => decide (Covers s r c)) = 1

/-- Along the diagonal of `rc × cc` the column clusters never have more sons than the row clusters. -/
inductive DiagFits : Cluster K → Cluster K → Prop where
  | stop {rc cc : Cluster K} : rc.sons = [] ∨ cc.sons = [] → DiagFits rc cc
  | step {rc cc : Cluster K} : cc.sons.length ≤ rc.sons.length →
      (∀ k (h1 : k < rc.sons.length) (h2 : k < cc.sons.length), DiagFits (rc.sons[k]) (cc.sons[k])) →
      DiagFits rc cc

/-- All rows of the block come before all of its columns. -/
def Above (b : Block K) : Prop := b.rc.cl.off + b.rc.cl.size ≤ b.cc.cl.off

end H2.Spec

namespace H2.Spec
variable {K : Type _}

mutual
/-- Paths of son numbers to all clusters of a tree, in preorder: the `k`-th path leads to the cluster with number
`k` in `enumerate_cluster`. -/
def cpaths : Cluster K → List (List Nat)
  | .mk _ ss => [] :: cpathsL 0 ss
def cpathsL : Nat → List (Cluster K) → List (List Nat)
  | _, [] => []
  | i, s :: ss => (cpaths s).map (i :: ·) ++ cpathsL (i + 1) ss
end

/-- Preorder number, inside the tree of `r`, of the cluster that `t` points to. -/
def refIndex (r t : CRef K) : Nat := (cpaths r.cl).idxOf (t.path.drop r.path.length)

/-- What the iterators should report for the blocks of `b` when called with numbers `bname`, `rname`, `cname`:
the `k`-th block in preorder with `bname + k` and the preorder numbers of its clusters. -/
def expectedEntries (b : Block K) (bname rname cname : Nat) : List (BEntry K) :=
  ((bnodes b).zipIdx bname).map fun p =>
    ⟨p.1, p.2, rname + refIndex b.rc p.1.rc, cname + refIndex b.cc p.1.cc⟩

/-- The `pre` callbacks of a trace, in order. -/
def pres (r : List (BEvent K)) : List (BEntry K) :=
  r.filterMap fun | .pre b x y z => some ⟨b, x, y, z⟩ | .post .. => none

/-- The `post` callbacks of a trace, in order. -/
def posts (r : List (BEvent K)) : List (BEntry K) :=
  r.filterMap fun | .post b x y z => some ⟨b, x, y, z⟩ | .pre .. => none

end H2.Spec

namespace H2.Spec
variable {K : Type _}

/-- Levels of all blocks in the order of `bnodes`, the root having level `p`. -/
def blevels : Nat → Block K → List Nat
  | p, .mk _ _ _ _ m n son =>
    p :: (List.finRange n).flatMap fun j => (List.finRange m).flatMap fun i => blevels (p + 1) (son i j)

/-- Number of blocks of `b` whose row cluster has the number `i`. -/
def rowCount (b : Block K) (i : Nat) : Nat := (bnodes b).countP fun s => decide (refIndex b.rc s.rc = i)

/-- Number of blocks of `b` whose column cluster has the number `i`. -/
def colCount (b : Block K) (i : Nat) : Nat := (bnodes b).countP fun s => decide (refIndex b.cc s.cc = i)

/-- The rows of the block belonging to a callback. -/
def InRows (e : BEvent K) (i : Nat) : Prop :=
  match e with
  | .pre b _ _ _ => b.rc.cl.off ≤ i ∧ i < b.rc.cl.off + b.rc.cl.size
  | .post b _ _ _ => b.rc.cl.off ≤ i ∧ i < b.rc.cl.off + b.rc.cl.size

/-- The columns of the block belonging to a callback. -/
def InCols (e : BEvent K) (i : Nat) : Prop :=
  match e with
  | .pre b _ _ _ => b.cc.cl.off ≤ i ∧ i < b.cc.cl.off + b.cc.cl.size
  | .post b _ _ _ => b.cc.cl.off ≤ i ∧ i < b.cc.cl.off + b.cc.cl.size

/-- The callback `act` reads and writes only those entries of an array that belong to the block: others keep
their value, and the new values depend on the old values of these entries only. -/
def ActsOn {V : Type _} (I : BEvent K → Nat → Prop) (act : BEvent K → (Nat → V) → (Nat → V)) : Prop :=
  ∀ e, (∀ s i, ¬ I e i → act e s i = s i) ∧
    ∀ s s', (∀ i, I e i → s i = s' i) → ∀ i, I e i → act e s i = act e s' i

/-- Executing the callbacks of a trace in order. -/
def runTrace {S : Type _} (act : BEvent K → S → S) (r : List (BEvent K)) (s : S) : S := r.foldl (fun s e => act e s) s

end H2.Spec

namespace H2.Spec
variable {K : Type _}

/-- What is expected of a block of a nonstrict tree: the flag is the result of the admissibility test, and there are
no sons iff the flag is set or one of the clusters is a leaf. -/
def NonstrictLabel (admis : Cluster K → Cluster K → Bool) (s : Block K) : Prop :=
  s.a = admis s.rc.cl s.cc.cl ∧
  (s.rsons * s.csons = 0 ↔ s.a = true ∨ s.rc.cl.sons = [] ∨ s.cc.cl.sons = [])

/-- What is expected of a block of a strict tree: no sons iff the flag is set or both clusters are leaves. -/
def StrictLabel (admis : Cluster K → Cluster K → Bool) (s : Block K) : Prop :=
  s.a = admis s.rc.cl s.cc.cl ∧
  (s.rsons * s.csons = 0 ↔ s.a = true ∨ (s.rc.cl.sons = [] ∧ s.cc.cl.sons = []))

/-- What is expected of a block of a lower triangular tree: blocks above the diagonal are leaves marked admissible,
all others satisfy `P`. -/
def LowerLabel (P : Block K → Prop) (s : Block K) : Prop :=
  (Above s → s.rsons * s.csons = 0 ∧ s.a = true) ∧ (¬ Above s → P s)

/-- A block tree over consistent cluster trees, with exact `desc` fields. -/
structure BlockOK (b : Block K) : Prop where
  tree : BlockTree b.rc b.cc b
  bdesc : BDescExact b
  rdesc : DescExact b.rc.cl
  cdesc : DescExact b.cc.cl
  rcons : Consistent b.rc.cl
  ccons : Consistent b.cc.cl

end H2.Spec
