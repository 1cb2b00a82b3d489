import Verif.Model.Trunc

/-!
# Coarsening of H-matrices (`Library/hcoarsen.c`)

H-matrices are values as in `Model/Harith`.  Matrices own their coefficients (`owner == NULL`), the sums of ranks fit into `uint`.  The counter
`desc` updated by `update_hmatrix` is not represented.  The comparison `G->rc == G->cc` of pointers is a parameter (`same`), since row and column
cluster may belong to different trees.
-/

namespace H2.HV
variable {G 𝕜 : Type} [RCLike 𝕜]

/-- `sizeof(rkmatrix)`, `sizeof(amatrix)`, `sizeof(field)` -/
structure Sizeof where
  rk : Nat
  am : Nat
  fd : Nat

/-- amatrix.c:290-299 `getsize_amatrix(a)` -/
def sizeAm (z : Sizeof) (a : VMat 𝕜) : Nat := z.am + z.fd * a.rows * a.cols
/-- rkmatrix.c:97-107 `getsize_rkmatrix(r)` with amatrix.c:301-310 `getsize_heap_amatrix` -/
def sizeRk (z : Sizeof) (r : VRk 𝕜) : Nat := z.rk + z.fd * r.A.rows * r.A.cols + z.fd * r.B.rows * r.B.cols

/-- hmatrix.h: `rsons * csons` -/
def nsons : HV G 𝕜 → Nat
  | rk .. => 0
  | full .. => 0
  | super _ _ m n _ => m * n
/-- hcoarsen.c:57-65, 84: the rank of a leaf or its number of columns -/
def leafRank : HV G 𝕜 → R Nat
  | rk _ _ r => pure r.k
  | full _ _ f => pure f.cols
  | super .. => .error .assertFail
/-- hcoarsen.c:57-65: the storage size of a leaf -/
def leafSize (z : Sizeof) : HV G 𝕜 → R Nat
  | rk _ _ r => pure (sizeRk z r)
  | full _ _ f => pure (sizeAm z f)
  | super .. => .error .assertFail

/-- hcoarsen.c:83-101: copy one son into the factors; the result are the new factors and the new rank offset -/
def putSon (h : HV G 𝕜) (rowoff coloff : Nat) (st : VMat 𝕜 × VMat 𝕜 × Nat) : R (VMat 𝕜 × VMat 𝕜 × Nat) := do
  let (A, B, rankoff) := st
  let rank ← h.leafRank
  let T ← A.sub h.rc.cl.size rowoff rank rankoff
  let S ← B.sub h.cc.cl.size coloff rank rankoff
  match h with
  | rk _ _ r => do
    let T ← VMat.copy false r.A T.rows T.cols
    let S ← VMat.copy false r.B S.rows S.cols
    pure (A.glue rowoff rankoff T, B.glue coloff rankoff S, rankoff + rank)
  | full _ _ f => do
    let T ← VMat.copy false f T.rows T.cols
    let S := VMat.ident S.rows S.cols
    pure (A.glue rowoff rankoff T, B.glue coloff rankoff S, rankoff + rank)
  | super .. => .error .ub

/-- hcoarsen.c:51-104: the sons as one low-rank matrix; also the storage size of the sons -/
def joinSons (z : Sizeof) (t s : CRef G) (m n : Nat) (son : Fin m → Fin n → HV G 𝕜) : R (VRk 𝕜 × Nat) := do
  let (ranksum, sizeold) ← foldFinM n (fun j (st : Nat × Nat) => foldFinM m (fun i (st : Nat × Nat) => do
    let k ← (son i j).leafRank
    let sz ← (son i j).leafSize z
    pure (st.1 + k, st.2 + sz)) st) (0, 0)
  let A : VMat 𝕜 := VMat.zero t.cl.size ranksum
  let B : VMat 𝕜 := VMat.zero s.cl.size ranksum
  let st ← foldFinM n (fun j (st : (VMat 𝕜 × VMat 𝕜 × Nat) × Nat) => do
    let st' ← foldFinM m (fun i (p : (VMat 𝕜 × VMat 𝕜 × Nat) × Nat) => do
      let q ← putSon (son i j) p.2 st.2 p.1
      pure (q, p.2 + (son i j).rc.cl.size)) (st.1, 0)
    if h : 0 < m then pure (st'.1, st.2 + (son ⟨0, h⟩ j).cc.cl.size)
    else .error .ub) ((A, B, 0), 0)
  pure (⟨st.1.1, st.1.2.1, ranksum⟩, sizeold)

/-- hcoarsen.c:8-131 `coarsen_hmatrix(G, tm, eps, recursive)` -/
noncomputable def coarsen (env : TrEnv 𝕜) (tm : Option Trunc.Mode) (eps : ℝ) (z : Sizeof) (same : CRef G → CRef G → Bool) (recursive : Bool) : HV G 𝕜 → R (HV G 𝕜)
  | rk t s r => pure (rk t s r)
  | full t s f => pure (full t s f)
  | super t s m n son =>
    if m * n > 0 then do
      let sons ← (if recursive then seqFin n (fun j => seqFin m (fun i => coarsen env tm eps z same recursive (son i j)))
        else pure (fun j i => son i j))
      let son' : Fin m → Fin n → HV G 𝕜 := fun i j => sons j i
      let leafs := foldFin n (fun j (l : Nat) => foldFin m (fun i (l : Nat) => l + (son' i j).nsons) l) 0
      if leafs > 0 then pure (super t s m n son')
      else if same t s then pure (super t s m n son')
      else do
        let (r, sizeold) ← joinSons z t s m n son'
        let r ← Tr.trunc env tm eps r
        if sizeRk z r < sizeold then pure (rk t s r) else pure (super t s m n son')
    else pure (super t s m n son)

end H2.HV
