import Verif.Model.Project
import Verif.Core.Arr

/-!
# Projection of dense matrices and H-matrices into H²-matrix spaces (`Library/h2matrix.c`, `Library/h2compression.c`, `Library/uniform.c`)

Bases are references as in `Model/Project`, matrices are values.  `ridx` and `cidx` are the index arrays of the row and column cluster trees (`t->idx[i]` is
`idx[t->off + i]`).
-/

namespace H2
section
variable {G 𝕜 : Type} [RCLike 𝕜]

/-- h2matrix.c:1886-1888, 1917-1920, h2compression.c:4135-4137: the submatrix for two clusters is copied into `f` -/
def gather (ridx cidx : Arr Nat) (a : VMat 𝕜) (row col : CRef G) (f : VMat 𝕜) : R (VMat 𝕜) :=
  forUp 0 col.cl.size (fun j f => forUp 0 row.cl.size (fun i (f : VMat 𝕜) => do
    let r ← ridx.get (row.cl.off + i)
    let c ← cidx.get (col.cl.off + j)
    if r < a.rows ∧ c < a.cols ∧ i < f.rows ∧ j < f.cols then pure ⟨f.rows, f.cols, fun i' j' => if i' = i ∧ j' = j then a.e r c else f.e i' j'⟩
    else .error .ub) f) f

/-- h2matrix.c:1817-1896 `collectdense_h2matrix(a, rb, cb, s)` for a fixed row basis with the matrix `V` and the sons `son`; `rec i cb s` is the recursive call for the
`i`-th son of the row basis. -/
def collectCol (ridx cidx : Arr Nat) (junk : Nat → 𝕜) (a : VMat 𝕜) (t : CRef G) (k : Nat) (V : VMat 𝕜) {n : Nat} (son : Fin n → CBV G 𝕜)
    (rec : Fin n → CBV G 𝕜 → VMat 𝕜 → R (VMat 𝕜)) : CBV G 𝕜 → VMat 𝕜 → R (VMat 𝕜)
  | .mk t' k' kt' kb' V' E' n' son', s => do
    cassert (decide (s.rows = k))
    cassert (decide (s.cols = k'))
    let s := VMat.zero s.rows s.cols
    if 0 < n then
      if 0 < n' then
        foldFinM n' (fun j s => do
          let s1 ← foldFinM n (fun i s1 => do
            let s2 ← rec i (son' j) ⟨(son i).k, (son' j).k, fun i j => junk (i + j)⟩
            VMat.addmul 1 true (son i).E false s2 s1) (VMat.zero k (son' j).k)
          VMat.addmul 1 false s1 false (son' j).E s) s
      else
        foldFinM n (fun i s => do
          let s2 ← rec i (.mk t' k' kt' kb' V' E' n' son') ⟨(son i).k, k', fun i j => junk (i + j)⟩
          VMat.addmul 1 true (son i).E false s2 s) s
    else
      if 0 < n' then
        foldFinM n' (fun j s => do
          let s1 ← collectCol ridx cidx junk a t k V son rec (son' j) ⟨k, (son' j).k, fun i j => junk (i + j)⟩
          VMat.addmul 1 false s1 false (son' j).E s) s
      else do
        let s2 ← gather ridx cidx a t t' ⟨t.cl.size, t'.cl.size, fun i j => junk (i + j)⟩
        let s1 ← VMat.addmul 1 true V false s2 (VMat.zero k t'.cl.size)
        VMat.addmul 1 false s1 false V' s

/-- h2matrix.c:1817-1896 `collectdense_h2matrix(a, rb, cb, s)`; the result is the new content of `s` -/
def collectDense (ridx cidx : Arr Nat) (junk : Nat → 𝕜) (a : VMat 𝕜) : CBV G 𝕜 → CBV G 𝕜 → VMat 𝕜 → R (VMat 𝕜)
  | .mk t k _ _ V _ _ son => collectCol ridx cidx junk a t k V son (fun i => collectDense ridx cidx junk a (son i))

/-- uniform.c:365-391 `add_rkmatrix_uniform(r, unew)` for `unew = (rb, cb, S)`; the result is the new content of `S` -/
def addRkUniform (junk : Nat → 𝕜) (r : VRk 𝕜) (rb cb : CBV G 𝕜) (S : VMat 𝕜) : R (VMat 𝕜) := do
  cassert (decide (r.A.cols = r.B.cols))
  let k := r.A.cols
  let At ← CBV.compress rb r.A ⟨rb.kbranch, k, fun i j => junk (i + j)⟩
  let Bt ← CBV.compress cb r.B ⟨cb.kbranch, k, fun i j => junk (i + j)⟩
  let Ac ← At.sub rb.k 0 k 0
  let Bc ← Bt.sub cb.k 0 k 0
  VMat.addmul 1 false Ac true Bc S

namespace H2V

/-- h2matrix.c:1898-1923 `project_amatrix_h2matrix(h2, a)`; a block without any content leads to an access through `h2->u == NULL`. -/
def projectDense (ridx cidx : Arr Nat) (junk : Nat → 𝕜) (a : VMat 𝕜) : H2V G 𝕜 → R (H2V G 𝕜)
  | super rb cb rsons csons son => do
    let s ← seqFin csons (fun j => seqFin rsons (fun i => projectDense ridx cidx junk a (son i j)))
    pure (super rb cb rsons csons fun i j => s j i)
  | full rb cb f => do
    cassert (decide (f.rows = rb.cb.t.cl.size))
    cassert (decide (f.cols = cb.cb.t.cl.size))
    let f ← gather ridx cidx a rb.cb.t cb.cb.t f
    pure (full rb cb f)
  | uni rb cb S => do
    let S ← collectDense ridx cidx junk a rb.cb cb.cb S
    pure (uni rb cb S)
  | zero _ _ => .error .ub

/-- h2compression.c:4077-4142 `build_projected_amatrix_h2matrix(G, b, rb, cb)` -/
def buildDense (ridx cidx : Arr Nat) (junk : Nat → 𝕜) (a : VMat 𝕜) : Block G → BRef G 𝕜 → BRef G 𝕜 → R (H2V G 𝕜)
  | .mk rc cc adm _ rsons csons son, rb, cb =>
    if h0 : 0 < rsons ∧ 0 < csons then do
      let s ← seqFin csons (fun j => do
        let cb1 ← (if (son ⟨0, h0.1⟩ ⟨0, h0.2⟩).cc.same cc then pure cb else cb.sonAt j)
        seqFin rsons (fun i => do
          let rb1 ← (if (son ⟨0, h0.1⟩ ⟨0, h0.2⟩).rc.same rc then pure rb else rb.sonAt i)
          buildDense ridx cidx junk a (son i j) rb1 cb1))
      pure (super rb cb rsons csons fun i j => s j i)
    else if adm then do
      let S ← collectDense ridx cidx junk a rb.cb cb.cb ⟨rb.cb.k, cb.cb.k, fun i j => junk (i + j)⟩
      pure (uni rb cb S)
    else do
      let f ← gather ridx cidx a rb.cb.t cb.cb.t ⟨rb.cb.t.cl.size, cb.cb.t.cl.size, fun i j => junk (i + j)⟩
      pure (full rb cb f)

/-- h2matrix.c:1925-1959 `project_hmatrix_h2matrix(h2, h)` -/
def projectH (junk : Nat → 𝕜) : H2V G 𝕜 → HV G 𝕜 → R (H2V G 𝕜)
  | super rb cb rsons csons son, h =>
    match h with
    | .super _ _ m n hson => do
      let s ← seqFin csons (fun j => seqFin rsons (fun i =>
        if h : (i.1 + j.1 * rsons) % m < m ∧ (i.1 + j.1 * rsons) / m < n then projectH junk (son i j) (hson ⟨_, h.1⟩ ⟨_, h.2⟩) else .error .ub))
      pure (super rb cb rsons csons fun i j => s j i)
    | _ => .error .assertFail
  | full rb cb f, h =>
    match h with
    | .full _ _ hf => do
      let f ← VMat.copy false hf f.rows f.cols
      pure (full rb cb f)
    | _ => .error .assertFail
  | uni rb cb S, h =>
    match h with
    | .rk _ _ r => do
      let At ← CBV.compress rb.cb r.A ⟨rb.cb.kbranch, r.k, fun i j => junk (i + j)⟩
      let Ac ← At.sub rb.cb.k 0 r.k 0
      let Bt ← CBV.compress cb.cb r.B ⟨cb.cb.kbranch, r.k, fun i j => junk (i + j)⟩
      let Bc ← Bt.sub cb.cb.k 0 r.k 0
      let S ← VMat.addmul 1 false Ac true Bc (VMat.zero S.rows S.cols)
      pure (uni rb cb S)
    | _ => .error .assertFail
  | zero _ _, _ => .error .assertFail

/-- h2compression.c:3599-3654 `build_projected_hmatrix_h2matrix(G, rb, cb)` -/
def buildH (junk : Nat → 𝕜) : HV G 𝕜 → BRef G 𝕜 → BRef G 𝕜 → R (H2V G 𝕜)
  | .super rc cc rsons csons son, rb, cb => do
    cassert (rc.same rb.cb.t)
    cassert (cc.same cb.cb.t)
    let s ← seqFin csons (fun j => do
      let cb1 ← (if h : 0 < rsons then (if (son ⟨0, h⟩ j).cc.same cb.cb.t then pure cb else cb.sonAt j) else .error .ub)
      seqFin rsons (fun i => do
        let rb1 ← (if h : 0 < csons then (if (son i ⟨0, h⟩).rc.same rb.cb.t then pure rb else rb.sonAt i) else .error .ub)
        buildH junk (son i j) rb1 cb1))
    pure (super rb cb rsons csons fun i j => s j i)
  | .full rc cc f, rb, cb => do
    cassert (rc.same rb.cb.t)
    cassert (cc.same cb.cb.t)
    let f ← VMat.copy false f rb.cb.t.cl.size cb.cb.t.cl.size
    pure (full rb cb f)
  | .rk rc cc r, rb, cb => do
    cassert (rc.same rb.cb.t)
    cassert (cc.same cb.cb.t)
    if 0 < r.A.cols then do
      let S ← addRkUniform junk r rb.cb cb.cb (VMat.zero rb.cb.k cb.cb.k)
      pure (uni rb cb S)
    else pure (zero rb cb)

end H2V
end
end H2
