import Verif.Model.ClusterBasis

/-!
# H2-matrices (`Library/h2matrix.c`): multiplication by vectors

The coupling matrices and the nearfield matrices are windows into the flat memory.
-/

namespace H2

/-- h2matrix.h `struct _h2matrix`: without content, uniform (`u != NULL`), dense (`f != NULL`) or subdivided
(`son != NULL`); reference counter and descriptor count are left out. -/
inductive H2Mat (G : Type _) where
  | zero (rb cb : CBas G)
  | uni (rb cb : CBas G) (S : Mat)
  | full (rb cb : CBas G) (f : Mat)
  | super (rb cb : CBas G) (rsons csons : Nat) (son : Fin rsons → Fin csons → H2Mat G)

namespace H2Mat
open VSt
variable {G : Type _} {K : Type} [Field K] [StarRing K]

/-- `h2->rb` -/
def rb : H2Mat G → CBas G | zero rb _ => rb | uni rb _ _ => rb | full rb _ _ => rb | super rb _ _ _ _ => rb
/-- `h2->cb` -/
def cb : H2Mat G → CBas G | zero _ cb => cb | uni _ cb _ => cb | full _ cb _ => cb | super _ cb _ _ _ => cb

/-- h2matrix.c:1236-1241 and 1247-1249, the part of a coefficient vector that belongs to the `i`-th son, beginning at `off`:
`cb->sons > 0 ? init_sub_avector(&loc, v, cb->son[i]->ktree, off) : init_sub_avector(&loc, v, cb->ktree, 0)` -/
def openSon (cb : CBas G) (v : Vec) (i off : Nat) (s : VSt K) : R (Vec × VSt K) :=
  if 0 < cb.sons then
    if h : i < cb.sons then openSub v (cb.son ⟨i, h⟩).ktree off s else .error .ub
  else openSub v cb.ktree 0 s

/-- h2matrix.c:1255 and 1261: `off += (cb->sons > 0 ? cb->son[i]->ktree : cb->t->size)` -/
def nextOff (cb : CBas G) (i off : Nat) : R Nat :=
  if 0 < cb.sons then
    if h : i < cb.sons then .ok (off + (cb.son ⟨i, h⟩).ktree) else .error .ub
  else .ok (off + cb.t.cl.size)

/-- h2matrix.c:1210-1266 `fastaddeval_h2matrix_avector(alpha, h2, xt, yt)`. -/
def fastaddeval (alpha : K) : H2Mat G → (xt yt : Vec) → VSt K → R (VSt K)
  | zero _ _, _, _, s => pure s
  | uni _ _ S, xt, yt, s => run (Dense.addeval alpha S xt yt) s
  | full rb cb f, xt, yt, s => do
    let (xp, s) ← openSub xt cb.t.cl.size cb.k s
    let (yp, s) ← openSub yt rb.t.cl.size rb.k s
    let s ← run (Dense.addeval alpha f xp yp) s
    let s ← uninit s
    uninit s
  | super rb cb rsons csons son, xt, yt, s => do
    let (s, xtoff) ← foldFinM csons (fun j (st : VSt K × Nat) => do
      cassert (decide (csons = 1 ∨ 0 < cb.sons))
      let (xt1, s) ← openSon cb xt j st.2 st.1
      let (s, ytoff) ← foldFinM rsons (fun i (st : VSt K × Nat) => do
        cassert (decide (rsons = 1 ∨ 0 < rb.sons))
        let (yt1, s) ← openSon rb yt i st.2 st.1
        let s ← fastaddeval alpha (son i j) xt1 yt1 s
        let s ← uninit s
        let o ← nextOff rb i st.2
        pure (s, o)) (s, rb.k)
      cassert (decide (ytoff = rb.ktree))
      let s ← uninit s
      let o ← nextOff cb j st.2
      pure (s, o)) (s, cb.k)
    cassert (decide (xtoff = cb.ktree))
    pure s

/-- h2matrix.c:1268-1286 `addeval_h2matrix_avector(alpha, h2, x, y)`; `px`, `py` are the addresses chosen by the allocator
for the coefficient vectors (`new_coeffs_clusterbasis_avector`, clusterbasis.c:513-521). -/
def addeval (ridx cidx : Arr Nat) (px py : Nat) (junk : Nat → K) (alpha : K) (h : H2Mat G) (x y : Vec) (s : VSt K) :
    R (VSt K) := do
  let (xt, s) := openNew px h.cb.ktree junk s
  let (yt, s) := openNew py h.rb.ktree junk s
  let s ← run (Dense.clearVec yt) s
  let s ← CBas.forward cidx h.cb x xt s
  let s ← fastaddeval alpha h xt yt s
  let s ← CBas.backward ridx h.rb yt y s
  let s ← uninitOwner yt s
  uninitOwner xt s

/-- h2matrix.c:1288-1343 `fastaddevaltrans_h2matrix_avector(alpha, h2, xt, yt)`. -/
def fastaddevaltrans (alpha : K) : H2Mat G → (xt yt : Vec) → VSt K → R (VSt K)
  | zero _ _, _, _, s => pure s
  | uni _ _ S, xt, yt, s => run (Dense.addevaltrans alpha S xt yt) s
  | full rb cb f, xt, yt, s => do
    let (xp, s) ← openSub xt rb.t.cl.size rb.k s
    let (yp, s) ← openSub yt cb.t.cl.size cb.k s
    let s ← run (Dense.addevaltrans alpha f xp yp) s
    let s ← uninit s
    uninit s
  | super rb cb rsons csons son, xt, yt, s => do
    let (s, ytoff) ← foldFinM csons (fun j (st : VSt K × Nat) => do
      let (yt1, s) ← openSon cb yt j st.2 st.1
      let (s, xtoff) ← foldFinM rsons (fun i (st : VSt K × Nat) => do
        let (xt1, s) ← openSon rb xt i st.2 st.1
        let s ← fastaddevaltrans alpha (son i j) xt1 yt1 s
        let s ← uninit s
        let o ← nextOff rb i st.2
        pure (s, o)) (s, rb.k)
      cassert (decide (xtoff = rb.ktree))
      let s ← uninit s
      let o ← nextOff cb j st.2
      pure (s, o)) (s, cb.k)
    cassert (decide (ytoff = cb.ktree))
    pure s

/-- h2matrix.c:1345-1364 `addevaltrans_h2matrix_avector(alpha, h2, x, y)`. -/
def addevaltrans (ridx cidx : Arr Nat) (px py : Nat) (junk : Nat → K) (alpha : K) (h : H2Mat G) (x y : Vec) (s : VSt K) :
    R (VSt K) := do
  let (xt, s) := openNew px h.rb.ktree junk s
  let (yt, s) := openNew py h.cb.ktree junk s
  let s ← run (Dense.clearVec yt) s
  let s ← CBas.forward ridx h.rb x xt s
  let s ← fastaddevaltrans alpha h xt yt s
  let s ← CBas.backward cidx h.cb yt y s
  let s ← uninitOwner yt s
  uninitOwner xt s

/-- h2matrix.c:1200-1208 `mvm_h2matrix_avector(alpha, h2trans, h2, x, y)`. -/
def mvm (ridx cidx : Arr Nat) (px py : Nat) (junk : Nat → K) (alpha : K) (trans : Bool) (h : H2Mat G) (x y : Vec)
    (s : VSt K) : R (VSt K) :=
  if trans then addevaltrans ridx cidx px py junk alpha h x y s else addeval ridx cidx px py junk alpha h x y s

end H2Mat
end H2
