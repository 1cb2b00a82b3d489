import Verif.Model.ClusterBasis

/-!
# Multiplication by a single cluster basis matrix (`Library/clusterbasis.c`, `Library/uniform.c`)

The coefficient vectors have `kbranch` entries: the coefficients of the sons share the space behind the `k` coefficients of the
cluster.
-/

namespace H2
namespace CBas
open VSt
variable {G : Type} {K : Type} [Field K] [StarRing K]

/-- clusterbasis.c:971-1009 `compress_clusterbasis_avector(cb, xp, xt)`. -/
def compress : CBas G → (xp xt : Vec) → VSt K → R (VSt K)
  | mk t k _ kbranch V _ n son, xp, xt, s => do
    cassert (decide (xt.dim = kbranch))
    let (xc, s) ← openSub xt k 0 s
    let s ← run (Dense.clearVec xc) s
    let s ← (if 0 < n then do
        let (s, off) ← foldFinM n (fun i (st : VSt K × Nat) => do
          let (xt1, s) ← openSub xt (son i).kbranch k st.1
          let (xp1, s) ← openSub xp (son i).size st.2 s
          let s ← compress (son i) xp1 xt1 s
          let s ← run (Dense.mvm 1 true (son i).E xt1 xc) s
          let s ← uninit s
          let s ← uninit s
          pure (s, st.2 + (son i).size)) (s, 0)
        cassert (decide (off = t.cl.size))
        pure s
      else run (Dense.mvm 1 true V xp xc) s)
    uninit s

/-- clusterbasis.c:1011-1053 `expand_clusterbasis_avector(cb, yt, yp)`. -/
def expand : CBas G → (yt yp : Vec) → VSt K → R (VSt K)
  | mk t k _ kbranch V _ n son, yt, yp, s => do
    cassert (decide (yt.dim = kbranch))
    let (yc, s) ← openSub yt k 0 s
    let s ← (if 0 < n then do
        let (s, off) ← foldFinM n (fun i (st : VSt K × Nat) => do
          let (yt1, s) ← openSub yt (son i).k k st.1
          let s ← run (Dense.clearVec yt1) s
          let s ← run (Dense.mvm 1 false (son i).E yc yt1) s
          let s ← uninit s
          let (yt1, s) ← openSub yt (son i).kbranch k s
          let (yp1, s) ← openSub yp (son i).size st.2 s
          let s ← expand (son i) yt1 yp1 s
          let s ← uninit s
          let s ← uninit s
          pure (s, st.2 + (son i).size)) (s, 0)
        cassert (decide (off = t.cl.size))
        pure s
      else run (Dense.mvm 1 false V yc yp) s)
    uninit s

/-- clusterbasis.c:1413-1460 `addeval_clusterbasis_avector(alpha, cb, yc, yp)` (the commented lines are left out). -/
def addeval (alloc : Mem K → Nat → Nat) (junk : Nat → K) (alpha : K) (cb : CBas G) (yc yp : Vec) (s : VSt K) : R (VSt K) := do
  cassert (decide (yc.dim = cb.k))
  cassert (decide (yp.dim = cb.size))
  let (yt, s) := openNew (alloc s.mem cb.kbranch) cb.kbranch junk s
  let (yt1, s) ← openSub yt cb.k 0 s
  let s ← run (Dense.copyVec yc yt1) s
  let s ← run (Dense.scaleVec alpha yt1) s
  let s ← uninit s
  let s ← expand cb yt yp s
  uninitOwner yt s

/-- clusterbasis.c:1462-1508 `addevaltrans_clusterbasis_avector(alpha, cb, xp, xc)` (the commented lines are left out). -/
def addevaltrans (alloc : Mem K → Nat → Nat) (junk : Nat → K) (alpha : K) (cb : CBas G) (xp xc : Vec) (s : VSt K) : R (VSt K) := do
  cassert (decide (xp.dim = cb.size))
  cassert (decide (xc.dim = cb.k))
  let (xt, s) := openNew (alloc s.mem cb.kbranch) cb.kbranch junk s
  let s ← compress cb xp xt s
  let (xt1, s) ← openSub xt cb.k 0 s
  let s ← run (Dense.addVec alpha xt1 xc) s
  let s ← uninit s
  uninitOwner xt s

/-- uniform.c:208-245 `mvm_uniform_avector(alpha, trans, u, x, y)` for the uniform matrix with bases `rb`, `cb` and coupling matrix
`S`.  The two branches differ only in the roles of the bases. -/
def mvmUniform (alloc : Mem K → Nat → Nat) (junk : Nat → K) (alpha : K) (trans : Bool) (rb cb : CBas G) (S : Mat) (x y : Vec)
    (s : VSt K) : R (VSt K) := do
  let sb := if trans then rb else cb
  let tb := if trans then cb else rb
  let (xt, s) := openNew (alloc s.mem sb.kbranch) sb.kbranch junk s
  let (yt, s) := openNew (alloc s.mem tb.kbranch) tb.kbranch junk s
  let s ← compress sb x xt s
  let s ← run (Dense.clearVec yt) s
  let s ← run (Dense.mvm alpha trans S xt yt) s
  let s ← expand tb yt y s
  let s ← uninitOwner yt s
  uninitOwner xt s

end CBas
end H2
