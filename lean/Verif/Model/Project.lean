import Verif.Model.Ortho

/-!
# Projection of uniform and H²-matrices into other cluster bases (`Library/uniform.c`, `Library/h2compression.c`)

Cluster bases are referred to by pointers: `BRef` consists of a number for the tree the basis belongs to, the path from the root of this tree to the cluster
(both together are the identity of the object), and the basis itself.  Matrices are values.  Reference counters and the lists of
uniform matrices are treated in `Model/RefCount`.
-/

namespace H2

/-- `pclusterbasis`: reference to a basis that is part of a tree of bases -/
structure BRef (G 𝕜 : Type) where
  tree : Nat
  path : List Nat
  cb : CBV G 𝕜

namespace BRef
variable {G 𝕜 : Type}
/-- pointer comparison -/
def same (b b' : BRef G 𝕜) : Bool := decide (b.tree = b'.tree ∧ b.path = b'.path)
/-- `cb->son[i]` -/
def son (b : BRef G 𝕜) (i : Fin b.cb.sons) : BRef G 𝕜 := ⟨b.tree, b.path ++ [i.1], b.cb.son i⟩
/-- h2compression.c:1752-1754, 1767-1769 `assert(j < cb->sons); cb1 = cb->son[j];` -/
def sonAt (b : BRef G 𝕜) (i : Nat) : R (BRef G 𝕜) := if h : i < b.cb.sons then .ok (b.son ⟨i, h⟩) else .error .assertFail
end BRef

/-- h2compression.c:1756-1760, 1771-1775: the operator of a son, `0` if there is no operator -/
def COp.sonAt {G 𝕜 : Type} (co : Option (COp G 𝕜)) (i : Nat) : R (Option (COp G 𝕜)) :=
  match co with
  | none => .ok none
  | some co => if h : i < co.sons then .ok (some (co.son ⟨i, h⟩)) else .error .assertFail
/-- access to a member of an operator: undefined for the null pointer -/
def COp.deref {G 𝕜 : Type} (co : Option (COp G 𝕜)) : R (COp G 𝕜) := match co with | none => .error .ub | some co => .ok co

/-- h2matrix.h `struct _h2matrix` with matrices as values: without content, uniform, dense, or subdivided -/
inductive H2V (G 𝕜 : Type) where
  | zero (rb cb : BRef G 𝕜)
  | uni (rb cb : BRef G 𝕜) (S : VMat 𝕜)
  | full (rb cb : BRef G 𝕜) (f : VMat 𝕜)
  | super (rb cb : BRef G 𝕜) (rsons csons : Nat) (son : Fin rsons → Fin csons → H2V G 𝕜)

namespace H2V
variable {G 𝕜 : Type}
/-- `h2->rb` -/
def rb : H2V G 𝕜 → BRef G 𝕜 | zero rb _ => rb | uni rb _ _ => rb | full rb _ _ => rb | super rb _ _ _ _ => rb
/-- `h2->cb` -/
def cb : H2V G 𝕜 → BRef G 𝕜 | zero _ cb => cb | uni _ cb _ => cb | full _ cb _ => cb | super _ cb _ _ _ => cb
end H2V

section
variable {G 𝕜 : Type} [RCLike 𝕜]

/-- uniform.c:252-289 `add_projected_uniform(u, ro, co, unew)` with `u = (rb, cb, S)` and `unew = (rb', cb', S')` -/
def addProjected (rb cb : BRef G 𝕜) (S : VMat 𝕜) (ro co : Option (COp G 𝕜)) (rb' cb' : BRef G 𝕜) (S' : VMat 𝕜) : R (VMat 𝕜) :=
  if rb.same rb' then
    if cb.same cb' then VMat.add 1 false S S'
    else do
      let co ← COp.deref co
      cassert (decide (co.krow = cb'.cb.k))
      cassert (decide (co.kcol = cb.cb.k))
      VMat.addmul 1 false S true co.C S'
  else
    if cb.same cb' then do
      let ro ← COp.deref ro
      cassert (decide (ro.krow = rb'.cb.k))
      cassert (decide (ro.kcol = rb.cb.k))
      VMat.addmul 1 false ro.C false S S'
    else do
      let ro ← COp.deref ro
      cassert (decide (ro.krow = rb'.cb.k))
      cassert (decide (ro.kcol = rb.cb.k))
      let co ← COp.deref co
      cassert (decide (co.krow = cb'.cb.k))
      cassert (decide (co.kcol = cb.cb.k))
      let XS ← VMat.addmul 1 false ro.C false S (VMat.zero rb'.cb.k cb.cb.k)
      VMat.addmul 1 false XS true co.C S'

/-- uniform.c:291-361 `project_inplace_uniform(u, rb, ro, cb, co)` with `u = (urb, ucb, S)`; the result is the new content of `u`.
`assert(ro)` and `assert(co)` come first here. -/
def projectInplace (urb ucb : BRef G 𝕜) (S : VMat 𝕜) (rb : BRef G 𝕜) (ro : Option (COp G 𝕜)) (cb : BRef G 𝕜) (co : Option (COp G 𝕜)) :
    R (BRef G 𝕜 × BRef G 𝕜 × VMat 𝕜) :=
  if urb.same rb then
    if ucb.same cb then pure (urb, ucb, S)
    else do
      cassert co.isSome
      let co ← COp.deref co
      cassert (decide (co.krow = cb.cb.k))
      cassert (decide (co.kcol = ucb.cb.k))
      let X ← VMat.addmul 1 false S true co.C (VMat.zero urb.cb.k cb.cb.k)
      let S ← VMat.copy false X X.rows X.cols
      pure (urb, cb, S)
  else do
    cassert ro.isSome
    let ro ← COp.deref ro
    cassert (decide (ro.krow = rb.cb.k))
    cassert (decide (ro.kcol = urb.cb.k))
    if ucb.same cb then do
      let X ← VMat.addmul 1 false ro.C false S (VMat.zero rb.cb.k ucb.cb.k)
      let S ← VMat.copy false X X.rows X.cols
      pure (rb, ucb, S)
    else do
      cassert co.isSome
      let co ← COp.deref co
      cassert (decide (co.krow = cb.cb.k))
      cassert (decide (co.kcol = ucb.cb.k))
      let X ← VMat.addmul 1 false ro.C false S (VMat.zero rb.cb.k ucb.cb.k)
      let S ← VMat.addmul 1 false X true co.C (VMat.zero rb.cb.k cb.cb.k)
      pure (rb, cb, S)

namespace H2V

/-- h2compression.c:1729-1798 `build_projected_h2matrix(h2, rb, ro, cb, co)`, with h2matrix.c `new_super_h2matrix`, `new_uniform_h2matrix`,
`new_full_h2matrix` and `new_zero_h2matrix` -/
def buildProjected : H2V G 𝕜 → (rb : BRef G 𝕜) → (ro : Option (COp G 𝕜)) → (cb : BRef G 𝕜) → (co : Option (COp G 𝕜)) → R (H2V G 𝕜)
  | super hrb hcb rsons csons son, rb, ro, cb, co => do
    let s ← seqFin csons (fun j => do
      let (cb1, co1) ← (if h : 0 < rsons then
          (if (son ⟨0, h⟩ j).cb.same hcb then pure (cb, co) else do
            let cb1 ← cb.sonAt j
            let co1 ← COp.sonAt co j
            pure (cb1, co1))
        else .error .ub)
      seqFin rsons (fun i => do
        let (rb1, ro1) ← (if h : 0 < csons then
            (if (son i ⟨0, h⟩).rb.same hrb then pure (rb, ro) else do
              let rb1 ← rb.sonAt i
              let ro1 ← COp.sonAt ro i
              pure (rb1, ro1))
          else .error .ub)
        buildProjected (son i j) rb1 ro1 cb1 co1))
    pure (super rb cb rsons csons fun i j => s j i)
  | uni hrb hcb S, rb, ro, cb, co => do
    let S' ← addProjected hrb hcb S ro co rb cb (VMat.zero rb.cb.k cb.cb.k)
    pure (uni rb cb S')
  | full _ _ f, rb, _, cb, _ => do
    let f' ← VMat.copy false f rb.cb.t.cl.size cb.cb.t.cl.size
    pure (full rb cb f')
  | zero _ _, rb, _, cb, _ => pure (zero rb cb)

end H2V
end
end H2
