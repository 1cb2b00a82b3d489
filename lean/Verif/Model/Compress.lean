import Verif.Model.LocalWeights

/-!
# Compression of H²-matrices (`Library/h2compression.c`)

The release of the auxiliary objects is not modelled.
-/

namespace H2
variable {G 𝕜 : Type} [RCLike 𝕜]

namespace CBV

/-- clusterbasis.c:310-333 `clonestructure_clusterbasis(cb)`, with `new_clusterbasis` and `new_leaf_clusterbasis` (clusterbasis.c:24-79): rank zero, empty matrices -/
def cloneStructure (q : QrEnv 𝕜) : CBV G 𝕜 → R (CBV G 𝕜)
  | mk t _ _ _ _ _ n son =>
    if 0 < n then do
      cassert (decide (t.nsons = n))
      let s ← seqFin n (fun i => cloneStructure q (son i))
      let c := counts t 0 s
      pure (mk t 0 c.1 c.2 (VMat.fresh q 0 0) (VMat.fresh q 0 0) n s)
    else pure (mk t 0 0 0 (VMat.fresh q 0 0) (VMat.fresh q 0 0) n son)

end CBV

namespace H2V

/-- h2compression.c:46-92 `compress_h2matrix_h2matrix(G, rbortho, cbortho, tm, eps)`; `rt` and `ct` are the names of the new basis trees.  The row basis is truncated
with the weights for the columns (line 74), the column basis with the weights for the rows (line 78). -/
noncomputable def compress (env : LWEnv 𝕜) (G₀ : H2V G 𝕜) (rbortho cbortho : Bool) (tm : Option CMode) (eps : ℝ) (rt ct : Nat) : R (H2V G 𝕜) := do
  let rbw ← CBV.basisWeight env.toQrEnv rbortho G₀.rb.cb
  let cbw ← CBV.basisWeight env.toQrEnv cbortho G₀.cb.cb
  let l ← localweights env G₀ rbw cbw tm (some (COp.ofBasis env.junk G₀.rb.cb)) (some (COp.ofBasis env.junk G₀.cb.cb))
  let rb ← CBV.cloneStructure env.toQrEnv G₀.rb.cb
  let r ← CBV.truncate env.toTrEnv G₀.rb.cb none (some l.2) tm eps rb (COp.ofBasis env.junk G₀.rb.cb)
  let cb ← CBV.cloneStructure env.toQrEnv G₀.cb.cb
  let c ← CBV.truncate env.toTrEnv G₀.cb.cb none (some l.1) tm eps cb (COp.ofBasis env.junk G₀.cb.cb)
  buildProjected G₀ ⟨rt, [], r.1⟩ (some r.2) ⟨ct, [], c.1⟩ (some c.2)

end H2V
end H2
