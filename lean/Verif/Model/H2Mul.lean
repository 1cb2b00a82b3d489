import Verif.Model.H2Matrix
import Verif.Model.CbMatrix

/-!
# H2-matrices (`Library/h2matrix.c`): multiplication by dense matrices

The coefficient matrices are allocated in the flat memory; the counter of the state is `active_amatrix` of amatrix.c.
-/

namespace H2
namespace H2Mat
open VSt
variable {G : Type} {K : Type} [Field K] [StarRing K]

/-- h2matrix.c:1644-1647 and 1652-1655, the part of a matrix of coefficients that belongs to the `i`-th son, beginning at row `off`:
`cb->sons > 0 ? init_sub_amatrix(&loc, X, cb->son[i]->ktree, off, cols, 0) : init_sub_amatrix(&loc, X, cb->ktree, 0, cols, 0)` -/
def openSonMat (cb : CBas G) (X : Mat) (cols i off : Nat) (s : VSt K) : R (Mat × VSt K) :=
  if 0 < cb.sons then
    if h : i < cb.sons then openMat X (cb.son ⟨i, h⟩).ktree off cols 0 s else .error .ub
  else openMat X cb.ktree 0 cols 0 s

/-- h2matrix.c:1640-1668, the loops over the sons; `rb`, `cb`, `rs`, `cs` are the local variables `rb`, `cb`, `rsons`, `csons`
(exchanged for the adjoint), `call i j` is the call for `h2->son[k]` with the `k` of line 1656. -/
def mulNode (rb cb : CBas G) (rs cs : Nat) (call : Fin rs → Fin cs → (Xt Yt : Mat) → VSt K → R (VSt K)) (Xt Yt : Mat)
    (s : VSt K) : R (VSt K) := do
  let (s, xtoff) ← foldFinM cs (fun j (st : VSt K × Nat) => do
    cassert (decide (cs = 1 ∨ 0 < cb.sons))
    let (Xt1, s) ← openSonMat cb Xt Xt.cols j st.2 st.1
    let (s, ytoff) ← foldFinM rs (fun i (st : VSt K × Nat) => do
      cassert (decide (rs = 1 ∨ 0 < rb.sons))
      let (Yt1, s) ← openSonMat rb Yt Xt.cols i st.2 st.1
      let s ← call i j Xt1 Yt1 s
      let s ← uninit s
      let o ← nextOff rb i st.2
      pure (s, o)) (s, rb.k)
    cassert (decide (ytoff = rb.ktree))
    let s ← uninit s
    let o ← nextOff cb j st.2
    pure (s, o)) (s, cb.k)
  cassert (decide (xtoff = cb.ktree))
  pure s

/-- h2matrix.c:1626-1632, the case `h2->u`; `rb`, `cb` as in `mulNode` -/
def mulUni (alpha : K) (tr : Bool) (rb cb : CBas G) (S Xt Yt : Mat) (s : VSt K) : R (VSt K) := do
  let (Xt1, s) ← openMat Xt cb.k 0 Xt.cols 0 s
  let (Yt1, s) ← openMat Yt rb.k 0 Yt.cols 0 s
  let s ← run (Dense.addmul alpha tr S false Xt1 Yt1) s
  let s ← uninit s
  uninit s

/-- h2matrix.c:1633-1640, the case `h2->f` -/
def mulFull (alpha : K) (tr : Bool) (rb cb : CBas G) (f Xt Yt : Mat) (s : VSt K) : R (VSt K) := do
  let (Xp, s) ← openMat Xt cb.t.cl.size cb.k Xt.cols 0 s
  let (Yp, s) ← openMat Yt rb.t.cl.size rb.k Yt.cols 0 s
  let s ← run (Dense.addmul alpha tr f false Xp Yp) s
  let s ← uninit s
  uninit s

/-- h2matrix.c:1610-1669 `fastaddmul_h2matrix_amatrix_amatrix(alpha, h2trans, h2, Xt, Yt)`.  The son `h2->son[k]` of
line 1656 is `son[i * csons + j]` with `csons = h2->rsons` in the adjoint case, that is row `j` and column `i`. -/
def fastaddmul (alpha : K) (tr : Bool) : H2Mat G → (Xt Yt : Mat) → VSt K → R (VSt K)
  | zero _ _, _, _, s => pure s
  | uni rb cb S, Xt, Yt, s => if tr then mulUni alpha true cb rb S Xt Yt s else mulUni alpha false rb cb S Xt Yt s
  | full rb cb f, Xt, Yt, s => if tr then mulFull alpha true cb rb f Xt Yt s else mulFull alpha false rb cb f Xt Yt s
  | super rb cb rsons csons son, Xt, Yt, s =>
    if tr then mulNode cb rb csons rsons (fun i j => fastaddmul alpha tr (son j i)) Xt Yt s
    else mulNode rb cb rsons csons (fun i j => fastaddmul alpha tr (son i j)) Xt Yt s

/-- The common code of h2matrix.c:1680-1737: the coefficients of `X` (`xt`: of its adjoint) are computed for the basis `sb`,
multiplied by the H2-matrix (`F`), and the result for the basis `tb` is added to `Y` by `B`.  `xc`, `yc` are the numbers of columns of the coefficient
matrices, `px`, `py` the addresses chosen by the allocator (`new_amatrix`, amatrix.c:157-167, and `del_amatrix`, amatrix.c:217-224). -/
def mulWrap (F : (Xt Yt : Mat) → VSt K → R (VSt K)) (B : (Yt Y : Mat) → VSt K → R (VSt K)) (px py : Nat) (junk : Nat → K) (xt : Bool)
    (sb tb : CBas G) (xc yc : Nat) (X Y : Mat) (s : VSt K) : R (VSt K) := do
  let (vx, s) := openNew px (sb.ktree * xc) junk s
  let (vy, s) := openNew py (tb.ktree * yc) junk s
  let Xt : Mat := ⟨px, sb.ktree, sb.ktree, xc⟩
  let Yt : Mat := ⟨py, tb.ktree, tb.ktree, yc⟩
  let s ← run (Dense.clear Yt) s
  let s ← CBas.forwardMat xt sb X Xt s
  let s ← F Xt Yt s
  let s ← B Yt Y s
  let s ← uninitOwner vy s
  uninitOwner vx s

/-- h2matrix.c:1671-1740 `addmul_h2matrix_amatrix_amatrix(alpha, h2trans, h2, xtrans, X, Y)` -/
def addmulLeft (px py : Nat) (junk : Nat → K) (alpha : K) (h2t : Bool) (h : H2Mat G) (xt : Bool) (X Y : Mat) (s : VSt K) :
    R (VSt K) :=
  if h2t = false then
    if xt = false then do
      cassert (decide (X.cols = Y.cols))
      cassert (decide (X.rows = h.cb.t.cl.size))
      cassert (decide (Y.rows = h.rb.t.cl.size))
      mulWrap (fastaddmul alpha false h) (CBas.backwardMat h.rb) px py junk false h.cb h.rb X.cols Y.cols X Y s
    else do
      cassert (decide (X.rows = Y.cols))
      cassert (decide (X.cols = h.cb.t.cl.size))
      cassert (decide (Y.rows = h.rb.t.cl.size))
      mulWrap (fastaddmul alpha false h) (CBas.backwardMat h.rb) px py junk true h.cb h.rb X.rows Y.cols X Y s
  else
    if xt = false then do
      cassert (decide (X.cols = Y.cols))
      cassert (decide (X.rows = h.rb.t.cl.size))
      cassert (decide (Y.rows = h.cb.t.cl.size))
      mulWrap (fastaddmul alpha true h) (CBas.backwardMat h.cb) px py junk false h.rb h.cb X.cols Y.cols X Y s
    else do
      cassert (decide (X.rows = Y.cols))
      cassert (decide (X.cols = h.rb.t.cl.size))
      cassert (decide (Y.rows = h.cb.t.cl.size))
      mulWrap (fastaddmul alpha true h) (CBas.backwardMat h.cb) px py junk true h.rb h.cb X.rows Y.cols X Y s

/-- h2matrix.c:1742-1811 `addmul_amatrix_h2matrix_amatrix(alpha, xtrans, X, h2trans, h2, Y)`.  In the case of lines 1749-1762 the
function calls `backward_clusterbasis_amatrix`, in the other cases `backward_clusterbasis_trans_amatrix`. -/
def addmulRight (px py : Nat) (junk : Nat → K) (alpha : K) (xt : Bool) (X : Mat) (h2t : Bool) (h : H2Mat G) (Y : Mat) (s : VSt K) :
    R (VSt K) :=
  if h2t then
    if xt then do
      cassert (decide (X.cols = Y.rows))
      cassert (decide (X.rows = h.cb.t.cl.size))
      cassert (decide (Y.cols = h.rb.t.cl.size))
      mulWrap (fastaddmul alpha false h) (CBas.backwardMat h.rb) px py junk false h.cb h.rb X.cols Y.rows X Y s
    else do
      cassert (decide (X.rows = Y.rows))
      cassert (decide (X.cols = h.cb.t.cl.size))
      cassert (decide (Y.cols = h.rb.t.cl.size))
      mulWrap (fastaddmul alpha false h) (CBas.backwardTransMat h.rb) px py junk true h.cb h.rb X.rows Y.rows X Y s
  else
    if xt then do
      cassert (decide (X.cols = Y.rows))
      cassert (decide (X.rows = h.rb.t.cl.size))
      cassert (decide (Y.cols = h.cb.t.cl.size))
      mulWrap (fastaddmul alpha true h) (CBas.backwardTransMat h.cb) px py junk false h.rb h.cb X.cols Y.rows X Y s
    else do
      cassert (decide (X.rows = Y.rows))
      cassert (decide (X.cols = h.rb.t.cl.size))
      cassert (decide (Y.cols = h.cb.t.cl.size))
      mulWrap (fastaddmul alpha true h) (CBas.backwardTransMat h.cb) px py junk true h.rb h.cb X.rows Y.rows X Y s

end H2Mat
end H2
