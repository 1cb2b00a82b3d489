import Verif.Model.Trunc
import Verif.Model.Project

/-!
# Truncation of cluster bases (`Library/h2compression.c`)

Matrices are values, as in `Model/Ortho`; QR factorizations run at memory level on copies, `svd_amatrix` is a parameter (`TrEnv.svd`).  The arrays with
the data for all clusters (`enumerate_clusterbasis`, `enumerate_clusteroperator`, `Wn`, `eps`) are indexed by the numbers of the clusters; here every cluster
gets its entries as arguments.
-/

namespace H2

/-- truncation.h:42-54 `struct _truncmode` -/
structure CMode where
  mode : Trunc.Mode
  blocks : Bool
  zetaLevel : ℝ
  zetaAge : ℝ

namespace CMode
/-- h2compression.c:781 `tm ? tm->zeta_age : 1.0` -/
noncomputable def age (tm : Option CMode) : ℝ := match tm with | none => 1 | some m => m.zetaAge
/-- h2compression.c:784 `tm ? tm->zeta_level : 1.0` -/
noncomputable def level (tm : Option CMode) : ℝ := match tm with | none => 1 | some m => m.zetaLevel
end CMode

section
variable {G 𝕜 : Type} [RCLike 𝕜]

/-- two matrices with the same number of columns, one above the other (h2compression.c:642-657, 800-811, 918-929): the blocks of the new matrix `X` are filled by
`copy_amatrix` -/
def stack2 (junk : Nat → 𝕜) (a : VMat 𝕜) (arows : Nat) (b : VMat 𝕜) (brows cols : Nat) : R (VMat 𝕜) := do
  let X : VMat 𝕜 := ⟨arows + brows, cols, fun i j => junk (i + j * (arows + brows))⟩
  let w ← X.sub arows 0 cols 0
  let w ← VMat.copy false a w.rows w.cols
  let X := X.glue 0 0 w
  let w ← X.sub brows arows cols 0
  let w ← VMat.copy false b w.rows w.cols
  pure (X.glue arows 0 w)

/-- h2compression.c:786-825 in `truncate_pre`: the inherited weight of a cluster is combined with the local weight -/
noncomputable def truncPre (q : QrEnv 𝕜) (t : CRef G) (kold : Nat) (W : VMat 𝕜) (clw : Option (COp G 𝕜)) : R (VMat 𝕜) := do
  cassert (decide (W.cols = kold))
  match clw with
  | none => pure W
  | some clw => do
    cassert (clw.t.same t)
    cassert (decide (clw.kcol = kold))
    let X ← stack2 q.junk W W.rows clw.C clw.krow kold
    weightLocal q X

/-- h2compression.c:828-835 in `truncate_pre`: the weight inherited by a son with the transfer matrix `E` and the rank `k1` -/
noncomputable def truncInherit (zeta : ℝ) (W E : VMat 𝕜) (k1 : Nat) : R (VMat 𝕜) :=
  VMat.addmul (zeta : 𝕜) false W true E (VMat.zero W.rows k1)

/-- h2compression.c:828-835: nothing is inherited if there are no local weights at all -/
noncomputable def truncInheritO (zeta : ℝ) (W : Option (VMat 𝕜)) (E : VMat 𝕜) (k1 : Nat) : R (Option (VMat 𝕜)) :=
  match W with
  | none => pure none
  | some W => do
    let W1 ← truncInherit zeta W E k1
    pure (some W1)

/-- h2compression.c:786-825 in `truncate_pre` -/
noncomputable def truncPreO (q : QrEnv 𝕜) (t : CRef G) (kold : Nat) (W : Option (VMat 𝕜)) (clw : Option (COp G 𝕜)) : R (Option (VMat 𝕜)) :=
  match W with
  | none => pure none
  | some W => do
    let W ← truncPre q t kold W clw
    pure (some W)

/-- h2compression.c:908-972 in `truncate_post`: the weighted matrix `VhatZ` -/
noncomputable def truncWeighted (q : QrEnv 𝕜) (kold : Nat) (cw : Option (COp G 𝕜)) (W : Option (VMat 𝕜)) (Vhat : VMat 𝕜) : R (VMat 𝕜) :=
  match cw with
  | some cw => do
    cassert (decide (cw.kcol = kold))
    match W with
    | some W => do
      cassert (decide (W.cols = kold))
      let X ← stack2 q.junk cw.C cw.krow W W.rows kold
      let Z ← weightLocal q X
      VMat.addmul 1 false Vhat true Z (VMat.zero Vhat.rows Z.rows)
    | none => VMat.addmul 1 false Vhat true cw.C (VMat.zero Vhat.rows cw.krow)
  | none =>
    match W with
    | some W => do
      cassert (decide (W.cols = kold))
      VMat.addmul 1 false Vhat true W (VMat.zero Vhat.rows W.rows)
    | none => VMat.copy false Vhat Vhat.rows kold

/-- h2compression.c:974-1005 in `truncate_post`: the first `k` left singular vectors, and the matrix of the basis change -/
noncomputable def truncLocal (env : TrEnv 𝕜) (tm : Option CMode) (eps : ℝ) (kold : Nat) (Vhat VhatZ : VMat 𝕜) : R (VMat 𝕜 × VMat 𝕜) := do
  let (sigma, u, _) ← env.svd VhatZ
  let k ← Trunc.findrank (tm.map CMode.mode) eps sigma
  let Q ← u.sub Vhat.rows 0 k 0
  let C ← VMat.addmul 1 true Q false Vhat (VMat.zero k kold)
  pure (Q, C)

namespace CBV

/-- h2compression.c:758-847 `truncate_pre`, h2compression.c:849-1052 `truncate_post`, called by `iterate_cluster` before and after the sons.  `W` is
the inherited weight `Wn[tname]`.  The sons of the cluster and the sons of the basis have to agree (h2compression.c:836, 846
`assert(tname1 == tname + t->desc)`: every cluster has at least one descendant, so the numbers agree if and only if the numbers of sons do;
a basis with more sons reads behind the array of the sons of the cluster). -/
noncomputable def truncIter (env : TrEnv 𝕜) (tm : Option CMode) : CBV G 𝕜 → (cw clw : Option (COp G 𝕜)) → (W : Option (VMat 𝕜)) → (eps : ℝ) →
    (cbnew : CBV G 𝕜) → (old2new : COp G 𝕜) → R (CBV G 𝕜 × COp G 𝕜)
  | mk t kold _ _ V _ n son, cw, clw, W, eps, cbnew, old2new => do
    let W ← truncPreO env.toQrEnv t kold W clw
    if t.nsons < n then throw .ub
    else do
    cassert (decide (n = t.nsons))
    cassert (cbnew.t.same t)
    cassert (old2new.t.same t)
    if 0 < n then do
      cassert (decide (cbnew.sons = n))
      let r ← seqFin n (fun i =>
        if h : i.1 < cbnew.sons ∧ i.1 < old2new.sons ∧ i.1 < t.nsons then do
          cassert ((son i).t.same (t.son ⟨i, h.2.2⟩))
          let W1 ← truncInheritO (CMode.age tm) W (son i).E (son i).k
          truncIter env tm (son i) (COp.sonOf cw i) (COp.sonOf clw i) W1 (eps * CMode.level tm) (cbnew.son ⟨i, h.1⟩) (old2new.son ⟨i, h.2.1⟩)
        else .error .ub)
      let Vhat ← stack env.junk kold (fun i => (r i).1.k) (fun i w => VMat.addmul 1 false (r i).2.C false (son i).E (VMat.zero w.rows w.cols))
      let VhatZ ← truncWeighted env.toQrEnv kold cw W Vhat
      let (Q, C) ← truncLocal env tm eps kold Vhat VhatZ
      let son' ← unstack Q (fun i => (r i).1)
      let c := counts t Q.cols son'
      pure (mk t Q.cols c.1 c.2 cbnew.V (VMat.fresh env.toQrEnv Q.cols cbnew.E.cols) n son', .mk old2new.t Q.cols kold C n fun i => (r i).2)
    else if 0 < cbnew.sons then throw .ub
    else do
      let Vhat ← VMat.copy false V t.cl.size kold
      let VhatZ ← truncWeighted env.toQrEnv kold cw W Vhat
      let (Q, C) ← truncLocal env tm eps kold Vhat VhatZ
      let V' ← VMat.copy false Q t.cl.size Q.cols
      let c := counts t Q.cols son
      pure (mk t Q.cols c.1 c.2 V' (VMat.fresh env.toQrEnv Q.cols cbnew.E.cols) n son, .mk old2new.t Q.cols kold C old2new.sons old2new.son)

/-- h2compression.c:1054-1089 `truncate_clusterbasis(cb, cw, clw, tm, eps, cbnew, old2new)`: the new content of `cbnew` and `old2new` -/
noncomputable def truncate (env : TrEnv 𝕜) (cb : CBV G 𝕜) (cw clw : Option (COp G 𝕜)) (tm : Option CMode) (eps : ℝ) (cbnew : CBV G 𝕜) (old2new : COp G 𝕜) :
    R (CBV G 𝕜 × COp G 𝕜) :=
  truncIter env tm cb cw clw (if clw.isSome then some (VMat.fresh env.toQrEnv 0 cb.k) else none) eps cbnew old2new

end CBV
end
end H2
