import Verif.Model.Cluster
import Verif.Core.FinLoop

/-!
# Block trees (`Library/block.c`)

The code compares cluster pointers (`b->son[0]->rc == b->rc`), so a block refers to its clusters by a reference: the
path (list of son numbers) from the root together with the cluster found there.  Two references into the same tree
are the same pointer iff the paths agree.
-/

namespace H2
variable {K : Type _}

/-- `pccluster`: where the cluster is and what is stored there. -/
structure CRef (K : Type _) where
  path : List Nat
  cl : Cluster K

namespace CRef
/-- `t->sons` -/
def nsons (t : CRef K) : Nat := t.cl.sons.length
/-- `t->son[i]` -/
def son (t : CRef K) (i : Fin t.nsons) : CRef K := ⟨t.path ++ [i.1], t.cl.sons[i.1]'i.2⟩
/-- pointer comparison `t == s` -/
def same (t s : CRef K) : Bool := decide (t.path = s.path)
/-- the root of a tree -/
def root (t : Cluster K) : CRef K := ⟨[], t⟩

theorem cluster_sizeOf_son {t : Cluster K} {s : Cluster K} (h : s ∈ t.sons) : sizeOf s < sizeOf t := by
  cases t with
  | mk i ss =>
    have := List.sizeOf_lt_of_mem (show s ∈ ss from h)
    simp only [Cluster.mk.sizeOf_spec]
    omega

theorem sizeOf_son (t : CRef K) (i : Fin t.nsons) : sizeOf (t.son i).cl < sizeOf t.cl :=
  cluster_sizeOf_son (List.getElem_mem i.2)
end CRef

/-- block.h `struct _block`: `son i j` is `son[i + j * rsons]`.  `son == NULL` iff `rsons * csons == 0`. -/
inductive Block (K : Type _) where
  | mk (rc cc : CRef K) (a : Bool) (desc rsons csons : Nat) (son : Fin rsons → Fin csons → Block K)

namespace Block

def rc : Block K → CRef K | mk rc _ _ _ _ _ _ => rc
def cc : Block K → CRef K | mk _ cc _ _ _ _ _ => cc
def a : Block K → Bool | mk _ _ a _ _ _ _ => a
def desc : Block K → Nat | mk _ _ _ d _ _ _ => d
def rsons : Block K → Nat | mk _ _ _ _ m _ _ => m
def csons : Block K → Nat | mk _ _ _ _ _ n _ => n
def son : (b : Block K) → Fin b.rsons → Fin b.csons → Block K | mk _ _ _ _ _ _ s => s

/-- block.c:105-126 `new_block(rc, cc, a, rsons, csons)` together with the sons stored afterwards and
block.c:144-160 `update_block(b)`: `desc = 1 + Σ_j Σ_i son[i+j*rsons]->desc`. -/
def build (rc cc : CRef K) (a : Bool) (rsons csons : Nat) (son : Fin rsons → Fin csons → Block K) : Block K :=
  mk rc cc a (foldFin csons (fun j d => foldFin rsons (fun i d => d + (son i j).desc) d) 1) rsons csons son

/-- a block without sons -/
def leaf (rc cc : CRef K) (a : Bool) : Block K := build rc cc a 0 0 (fun i _ => i.elim0)

/-- block.c:162-204 `build_nonstrict_block(rc, cc, eta, admis)`. -/
def buildNonstrict (admis : Cluster K → Cluster K → Bool) (rc cc : CRef K) : Block K :=
  if admis rc.cl cc.cl then leaf rc cc true
  else if rc.nsons * cc.nsons = 0 then leaf rc cc false
  else build rc cc false rc.nsons cc.nsons (fun i j => buildNonstrict admis (rc.son i) (cc.son j))
termination_by sizeOf rc.cl
decreasing_by exact CRef.sizeOf_son _ _

/-- block.c:257-321 `build_strict_block(rc, cc, eta, admis)`. -/
def buildStrict (admis : Cluster K → Cluster K → Bool) (rc cc : CRef K) : Block K :=
  if admis rc.cl cc.cl then leaf rc cc true
  else if rc.nsons = 0 then
    if cc.nsons = 0 then leaf rc cc false
    else build rc cc false 1 cc.nsons (fun _ j => buildStrict admis rc (cc.son j))
  else
    if cc.nsons = 0 then build rc cc false rc.nsons 1 (fun i _ => buildStrict admis (rc.son i) cc)
    else build rc cc false rc.nsons cc.nsons (fun i j => buildStrict admis (rc.son i) (cc.son j))
termination_by sizeOf rc.cl + sizeOf cc.cl
decreasing_by
  · have := CRef.sizeOf_son cc j; omega
  · have := CRef.sizeOf_son rc i; omega
  · have := CRef.sizeOf_son cc j; have := CRef.sizeOf_son rc i; omega

/-- block.c:229-247, 362-380: the sons of a lower triangular block, column by column: admissible leaves above the
diagonal, `diag` on it, `below` below.  A column `j ≥ rsons` reads `rc->son[j]` behind the end of the array. -/
def lowerSons (rc cc : CRef K) (diag : (i : Fin rc.nsons) → (j : Fin cc.nsons) → R (Block K))
    (below : Fin rc.nsons → Fin cc.nsons → Block K) : R (Fin rc.nsons → Fin cc.nsons → Block K) := do
  let cols ← seqFin cc.nsons (fun j =>
    if rc.nsons ≤ j.1 then .error .ub
    else seqFin rc.nsons (fun i =>
      if i.1 < j.1 then .ok (leaf (rc.son i) (cc.son j) true)
      else if i.1 = j.1 then diag i j
      else .ok (below i j)))
  pure (fun i j => cols j i)

/-- block.c:206-255 `build_nonstrict_lower_block(rc, cc, eta, admis)`. -/
def buildNonstrictLower (admis : Cluster K → Cluster K → Bool) (rc cc : CRef K) : R (Block K) :=
  if admis rc.cl cc.cl then .ok (leaf rc cc true)
  else if rc.nsons * cc.nsons = 0 then .ok (leaf rc cc false)
  else do
    let son ← lowerSons rc cc (fun i j => buildNonstrictLower admis (rc.son i) (cc.son j))
      (fun i j => buildNonstrict admis (rc.son i) (cc.son j))
    pure (build rc cc false rc.nsons cc.nsons son)
termination_by sizeOf rc.cl
decreasing_by exact CRef.sizeOf_son _ _

/-- block.c:323-396 `build_strict_lower_block(rc, cc, eta, admis)`. -/
def buildStrictLower (admis : Cluster K → Cluster K → Bool) (rc cc : CRef K) : R (Block K) :=
  if admis rc.cl cc.cl then .ok (leaf rc cc true)
  else if rc.nsons = 0 then
    if cc.nsons = 0 then .ok (leaf rc cc false)
    else .ok (build rc cc false 1 cc.nsons (fun _ j => buildStrict admis rc (cc.son j)))
  else
    if cc.nsons = 0 then .ok (build rc cc false rc.nsons 1 (fun i _ => buildStrict admis (rc.son i) cc))
    else do
      let son ← lowerSons rc cc (fun i j => buildStrictLower admis (rc.son i) (cc.son j))
        (fun i j => buildStrict admis (rc.son i) (cc.son j))
      pure (build rc cc false rc.nsons cc.nsons son)
termination_by sizeOf rc.cl
decreasing_by exact CRef.sizeOf_son _ _

end Block
end H2
