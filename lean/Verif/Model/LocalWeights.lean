import Verif.Model.TruncBasis

/-!
# Local and total weights for H²-matrices (`Library/h2compression.c`)

The arrays that are created by `enumerate_clusteroperator` are indexed by the numbers of the clusters; here they are functions of the path from the
root to the cluster (`desc`, which relates both, is treated in C10).  Their entries are pointers to the operators, so a change of an entry is a change of the operator tree.
Serial execution; the operators for rows and columns are different objects.
-/

namespace H2

/-- clusteroperator.h:41-65 `struct _clusteroperator` without the sons -/
structure OpNode (G 𝕜 : Type) where
  t : CRef G
  krow : Nat
  kcol : Nat
  C : VMat 𝕜

/-- access to a member: undefined for the null pointer -/
def OpNode.deref {G 𝕜 : Type} (o : Option (OpNode G 𝕜)) : R (OpNode G 𝕜) := match o with | none => .error .ub | some nd => .ok nd

/-- the array filled by `enumerate` -/
abbrev OpArr (G 𝕜 : Type) := List Nat → Option (OpNode G 𝕜)

namespace COp
variable {G 𝕜 : Type}

/-- clusteroperator.c:378-406 `enumerate`: the entry for the cluster with the path `p`, `0` below the leaves of the operator -/
def nodeAt : COp G 𝕜 → OpArr G 𝕜
  | mk t kr kc C _ _, [] => some ⟨t, kr, kc, C⟩
  | mk _ _ _ _ n son, i :: p => if h : i < n then nodeAt (son ⟨i, h⟩) p else none

/-- clusteroperator.c:378-406 `enumerate`: the assertions -/
def enumCheck : COp G 𝕜 → CRef G → R Unit
  | mk t _ _ _ n son, s => do
    cassert (t.same s)
    if 0 < n then do
      cassert (decide (s.nsons = n))
      let _ ← seqFin n (fun i => if h : i.1 < s.nsons then enumCheck (son i) (s.son ⟨i, h⟩) else .error .ub)
      pure ()
    else pure ()

/-- clusteroperator.c:408-418 `enumerate_clusteroperator(t, co)`: `co->t->desc` is undefined for `co == 0` -/
def enumerate (t : CRef G) (co : Option (COp G 𝕜)) : R (OpArr G 𝕜) := do
  let co ← COp.deref co
  enumCheck co t
  pure co.nodeAt

/-- the operator after the entries of the array have been changed -/
def fill : COp G 𝕜 → OpArr G 𝕜 → COp G 𝕜
  | mk t kr kc C n son, A =>
    mk (((A []).map OpNode.t).getD t) (((A []).map OpNode.krow).getD kr) (((A []).map OpNode.kcol).getD kc) (((A []).map OpNode.C).getD C) n
      fun i => fill (son i) fun p => A (i.1 :: p)

/-- clusteroperator.c:229-249 `build_from_clusterbasis_clusteroperator(cb)`: matrices without rows -/
def ofBasis (junk : Nat → 𝕜) : CBV G 𝕜 → COp G 𝕜
  | .mk t k _ _ _ _ n son => mk t 0 k ⟨0, k, fun i j => junk (i + j)⟩ n fun i => ofBasis junk (son i)
end COp

/-- the row weights and the column weights -/
structure LWSt (G 𝕜 : Type) where
  rw : OpArr G 𝕜
  cw : OpArr G 𝕜

/-- the environment of the truncation, and `norm2_amatrix` -/
structure LWEnv (𝕜 : Type) extends TrEnv 𝕜 where
  norm2 : VMat 𝕜 → ℝ

section
variable {G 𝕜 : Type} [RCLike 𝕜]

/-- h2compression.c:153-184, 195-226 in `norm2_fast_uniform` and `normfrob_fast_uniform`: the matrix `urc` -/
def fastBlock (rw cw : Option (OpNode G 𝕜)) (S : VMat 𝕜) (kr kc : Nat) : R (VMat 𝕜) :=
  match rw, cw with
  | some rw, some cw => do
    let ur ← VMat.addmul 1 false rw.C false S (VMat.zero rw.krow kc)
    VMat.addmul 1 false ur true cw.C (VMat.zero rw.krow cw.krow)
  | some rw, none => VMat.addmul 1 false rw.C false S (VMat.zero rw.krow kc)
  | none, some cw => VMat.addmul 1 false S true cw.C (VMat.zero kr cw.krow)
  | none, none => pure S

/-- h2compression.c:503-512 in `localweights2`: the factor `alpha`, with h2compression.c:145-190 `norm2_fast_uniform` and h2compression.c:191-228 `normfrob_fast_uniform` -/
noncomputable def blockAlpha (env : LWEnv 𝕜) (tm : Option CMode) (rw cw : Option (OpNode G 𝕜)) (S : VMat 𝕜) (kr kc : Nat) : R ℝ :=
  match tm with
  | none => pure 1
  | some m =>
    if m.blocks then do
      let urc ← fastBlock rw cw S kr kc
      let norm := if m.mode.frobenius then CBV.frob urc else env.norm2 urc
      pure (if 0 < norm then 1 / norm else 1)
    else pure 1

/-- h2compression.c:530-543, 575-588 in `localweights2`: the lower block, `alpha W S^*` or `alpha S^*` for the rows (`tr`), `alpha W S` or `alpha S` for the columns; `k1` is the rank of
the basis in the other direction, `k` the rank of the basis -/
noncomputable def lowerBlock (alpha : ℝ) (tr : Bool) (bw : Option (OpNode G 𝕜)) (S : VMat 𝕜) (k1 k : Nat) : R (VMat 𝕜) :=
  match bw with
  | some bw => VMat.addmul (alpha : 𝕜) false bw.C tr S (VMat.zero bw.krow k)
  | none => VMat.add (alpha : 𝕜) tr S (VMat.zero k1 k)

/-- h2compression.c:514-553, 555-598 in `localweights2`: the old weight and the new block are combined and factorized.  If the old weight has no rows, the matrix `W` consists
of the new block only. -/
noncomputable def addWeight (q : QrEnv 𝕜) (alpha : ℝ) (tr : Bool) (lw : OpNode G 𝕜) (bw : Option (OpNode G 𝕜)) (S : VMat 𝕜) (k1 k : Nat) : R (OpNode G 𝕜) := do
  let W1 ← lowerBlock alpha tr bw S k1 k
  let W ← (if 0 < lw.krow then do
      cassert (decide (lw.kcol = k))
      stack2 q.junk lw.C lw.krow W1 W1.rows k
    else pure W1)
  let C ← weightLocal q W
  pure ⟨lw.t, C.rows, k, C⟩

/-- h2compression.c:466-592 `localweights2` for a uniform block: `rname` and `cname` are the paths `rp` and `cp` -/
noncomputable def localWeights2 (env : LWEnv 𝕜) (tm : Option CMode) (rbwn cbwn : OpArr G 𝕜) (rb cb : BRef G 𝕜) (S : VMat 𝕜) (rp cp : List Nat) (st : LWSt G 𝕜) : R (LWSt G 𝕜) := do
  let rlw ← OpNode.deref (st.rw rp)
  let clw ← OpNode.deref (st.cw cp)
  cassert (rlw.t.same rb.cb.t)
  cassert (clw.t.same cb.cb.t)
  let alpha ← blockAlpha env tm (rbwn rp) (cbwn cp) S rb.cb.k cb.cb.k
  let rlw ← addWeight env.toQrEnv alpha true rlw (cbwn cp) S cb.cb.k rb.cb.k
  let clw ← addWeight env.toQrEnv alpha false clw (rbwn rp) S rb.cb.k cb.cb.k
  pure ⟨fun p => if p = rp then some rlw else st.rw p, fun p => if p = cp then some clw else st.cw p⟩

namespace H2V

/-- h2matrix.c:564-755 `iterate_h2matrix(G, mname, rname, cname, pardepth, localweights2, 0, wd)`; `rp` and `cp` are the paths of the row and the column cluster.  The assertions
on the numbers of the clusters (every cluster has at least one descendant, so they are equivalent to conditions on the numbers of sons) come first here, and more sons than the cluster has are
undefined behaviour. -/
noncomputable def iterWeights (env : LWEnv 𝕜) (tm : Option CMode) (rbwn cbwn : OpArr G 𝕜) : H2V G 𝕜 → (rp cp : List Nat) → LWSt G 𝕜 → R (LWSt G 𝕜)
  | zero _ _, _, _, st => pure st
  | full _ _ _, _, _, st => pure st
  | uni rb cb S, rp, cp, st => localWeights2 env tm rbwn cbwn rb cb S rp cp st
  | super rb cb rsons csons son, rp, cp, st =>
    if h : 0 < rsons ∧ 0 < csons then
      if rb.same (son ⟨0, h.1⟩ ⟨0, h.2⟩).rb then
        if cb.same (son ⟨0, h.1⟩ ⟨0, h.2⟩).cb then iterWeights env tm rbwn cbwn (son ⟨0, h.1⟩ ⟨0, h.2⟩) rp cp st
        else if cb.cb.t.nsons < csons then .error .ub
        else do
          cassert (decide (csons = cb.cb.t.nsons))
          foldFinM csons (fun j st => iterWeights env tm rbwn cbwn (son ⟨0, h.1⟩ j) rp (cp ++ [j.1]) st) st
      else
        if cb.same (son ⟨0, h.1⟩ ⟨0, h.2⟩).cb then
          if rb.cb.t.nsons < rsons then .error .ub
          else do
            cassert (decide (rsons = rb.cb.t.nsons))
            foldFinM rsons (fun i st => iterWeights env tm rbwn cbwn (son i ⟨0, h.2⟩) (rp ++ [i.1]) cp st) st
        else if rb.cb.t.nsons < rsons ∨ cb.cb.t.nsons < csons then .error .ub
        else if csons ≤ rsons then do
          cassert (decide (csons = cb.cb.t.nsons))
          foldFinM rsons (fun k st => foldFinM csons (fun j st =>
            iterWeights env tm rbwn cbwn (son ⟨(k.1 + j.1) % rsons, Nat.mod_lt _ h.1⟩ j) (rp ++ [(k.1 + j.1) % rsons]) (cp ++ [j.1]) st) st) st
        else do
          cassert (decide (rsons = rb.cb.t.nsons))
          foldFinM csons (fun k st => foldFinM rsons (fun i st =>
            iterWeights env tm rbwn cbwn (son i ⟨(k.1 + i.1) % csons, Nat.mod_lt _ h.2⟩) (rp ++ [i.1]) (cp ++ [(k.1 + i.1) % csons]) st) st) st
    else .error .ub

/-- h2compression.c:594-620 `localweights_h2matrix(G, rbw, cbw, tm, rw, cw)`: the new content of `rw` and `cw` -/
noncomputable def localweights (env : LWEnv 𝕜) (G₀ : H2V G 𝕜) (rbw cbw : Option (COp G 𝕜)) (tm : Option CMode) (rw cw : Option (COp G 𝕜)) : R (COp G 𝕜 × COp G 𝕜) := do
  let rbwn ← COp.enumerate G₀.rb.cb.t rbw
  let cbwn ← COp.enumerate G₀.cb.cb.t cbw
  let rwn ← COp.enumerate G₀.rb.cb.t rw
  let cwn ← COp.enumerate G₀.cb.cb.t cw
  let st ← iterWeights env tm rbwn cbwn G₀ [] [] ⟨rwn, cwn⟩
  let rw ← COp.deref rw
  let cw ← COp.deref cw
  pure (rw.fill st.rw, cw.fill st.cw)

end H2V

namespace CBV

/-- h2compression.c:640-669 in `accumulate`: the weight of a son -/
noncomputable def accumSon (q : QrEnv 𝕜) (zeta : ℝ) (C : VMat 𝕜) (krow : Nat) (son : CBV G 𝕜) (lson : COp G 𝕜) : R (COp G 𝕜) := do
  cassert (decide (lson.kcol = son.k))
  let W1 ← VMat.addmul (zeta : 𝕜) false C true son.E (VMat.zero krow son.k)
  let W ← stack2 q.junk lson.C lson.krow W1 krow son.k
  let C' ← weightLocal q W
  pure (.mk lson.t C'.rows son.k C' lson.sons lson.son)

/-- h2compression.c:622-673 `accumulate`, called for all clusters, fathers before sons, by `iterate_parallel_cluster` (here: one after the other).  The assertions of
clusterbasis.c `enumerate` on the sons of the basis are included; an operator that ends before the cluster tree leads to an access to a null pointer. -/
noncomputable def accum (q : QrEnv 𝕜) (zeta : ℝ) : CBV G 𝕜 → COp G 𝕜 → R (COp G 𝕜)
  | mk t k _ _ _ _ n son, .mk lt kr kc C m lson => do
    cassert (decide (n = 0 ∨ n = t.nsons))
    cassert (decide (kc = k))
    if m = 0 then (if 0 < t.nsons then .error .ub else pure (.mk lt kr kc C m lson))
    else do
      cassert (decide (n = m))
      let s ← seqFin n (fun i => if h : i.1 < m then accumSon q zeta C kr (son i) (lson ⟨i, h⟩) else .error .ub)
      let s' ← seqFin n (fun i => accum q zeta (son i) (s i))
      pure (.mk lt kr kc C n s')

/-- h2compression.c:675-699 `accumulate_clusteroperator(cb, tm, lw)` -/
noncomputable def accumulate (q : QrEnv 𝕜) (cb : CBV G 𝕜) (tm : Option CMode) (lw : COp G 𝕜) : R (COp G 𝕜) := do
  COp.enumCheck lw cb.t
  accum q (CMode.age tm) cb lw

/-- `build_from_clusterbasis_clusteroperator(cb)` and `weight_clusterbasis_clusteroperator(cb, .)` unless the basis is supposed to be orthonormal
(h2compression.c:56-66, 708-724) -/
noncomputable def basisWeight (q : QrEnv 𝕜) (ortho : Bool) (cb : CBV G 𝕜) : R (Option (COp G 𝕜)) :=
  if ortho then pure none
  else do
    let w ← CBV.weight q cb (COp.ofBasis q.junk cb)
    pure (some w)

end CBV

namespace H2V

/-- h2compression.c:713-724 in `totalweights_h2matrix`: the weights for the column basis; those of the row basis are used if the bases are the same -/
noncomputable def colWeight (q : QrEnv 𝕜) (cbortho : Bool) (same : Bool) (rbw : Option (COp G 𝕜)) (cb : CBV G 𝕜) : R (Option (COp G 𝕜)) :=
  if cbortho then pure none
  else if same then pure rbw
  else CBV.basisWeight q false cb

/-- h2compression.c:701-742 `totalweights_h2matrix(G, rbortho, cbortho, tm, rw, cw)` for `rw` and `cw` other than `0` -/
noncomputable def totalweights (env : LWEnv 𝕜) (G₀ : H2V G 𝕜) (rbortho cbortho : Bool) (tm : Option CMode) (rw cw : COp G 𝕜) : R (COp G 𝕜 × COp G 𝕜) := do
  let rbw ← CBV.basisWeight env.toQrEnv rbortho G₀.rb.cb
  let cbw ← colWeight env.toQrEnv cbortho (G₀.rb.same G₀.cb) rbw G₀.cb.cb
  let l ← localweights env G₀ rbw cbw tm (some rw) (some cw)
  let rw ← CBV.accumulate env.toQrEnv G₀.rb.cb tm l.1
  let cw ← CBV.accumulate env.toQrEnv G₀.cb.cb tm l.2
  pure (rw, cw)

end H2V
end
end H2
