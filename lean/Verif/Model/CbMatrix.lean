import Verif.Model.ClusterBasis

/-!
# Transformations of matrices by cluster bases (`Library/clusterbasis.c`)

As in `Model/ClusterBasis.lean`; the counter of the state is `active_amatrix` of amatrix.c.
-/

namespace H2
namespace VSt
variable {K : Type _}

/-- amatrix.c:39-62 `init_sub_amatrix(a, src, rows, roff, cols, coff)` including the counter. -/
def openMat (src : Mat) (rows roff cols coff : Nat) (s : VSt K) : R (Mat × VSt K) := do
  let a ← Dense.initSub src rows roff cols coff
  pure (a, { s with act := s.act + 1 })
end VSt

namespace CBas
open VSt
variable {G : Type} {K : Type} [Field K] [StarRing K]

/-- clusterbasis.c:1219-1220 (`tr` false: the rows of the son), 1272-1273 (`tr`: the columns of the son): the part `Xp1` of `Xp` -/
def openPart (tr : Bool) (Xp : Mat) (size off : Nat) (s : VSt K) : R (Mat × VSt K) :=
  if tr then openMat Xp Xp.rows 0 size off s else openMat Xp size off Xp.cols 0 s

/-- clusterbasis.c:1201-1251 `forward_clusterbasis_amatrix(cb, Xp, Xt)` and, with `tr`, 1253-1304
`forward_clusterbasis_trans_amatrix(cb, Xp, Xt)`. -/
def forwardMat (tr : Bool) : CBas G → (Xp Xt : Mat) → VSt K → R (VSt K)
  | mk t k ktree _ V _ n son, Xp, Xt, s => do
    cassert (decide ((if tr then Xp.cols else Xp.rows) = t.cl.size))
    cassert (decide (Xt.rows = ktree))
    cassert (decide ((if tr then Xp.rows else Xp.cols) = Xt.cols))
    let (Xc, s) ← openMat Xt k 0 Xt.cols 0 s
    let s ← run (Dense.clear Xc) s
    let s ← (if 0 < n then do
        let (s, xpoff, xtoff) ← foldFinM n (fun i (st : VSt K × Nat × Nat) =>
          if h : i.1 < t.nsons then do
            let (Xp1, s) ← openPart tr Xp (t.son ⟨i.1, h⟩).cl.size st.2.1 st.1
            let (Xt1, s) ← openMat Xt (son i).ktree st.2.2 Xt.cols 0 s
            let s ← forwardMat tr (son i) Xp1 Xt1 s
            let s ← uninit s
            let s ← uninit s
            let (Xt1, s) ← openMat Xt (son i).k st.2.2 Xt.cols 0 s
            let s ← run (Dense.addmul 1 true (son i).E false Xt1 Xc) s
            let s ← uninit s
            pure (s, st.2.1 + (t.son ⟨i.1, h⟩).cl.size, st.2.2 + (son i).ktree)
          else .error .ub) (s, 0, k)
        cassert (decide (xpoff = t.cl.size))
        cassert (decide (xtoff = ktree))
        pure s
      else do
        let (Xt1, s) ← openMat Xt t.cl.size k Xt.cols 0 s
        let s ← run (Dense.copy tr Xp Xt1) s
        let s ← run (Dense.addmul 1 true V false Xt1 Xc) s
        uninit s)
    uninit s

/-- The common code of clusterbasis.c:1306-1355 and 1357-1407 for a cluster `t` with sons `son`; `tr` for the second function, `call i`
is the call for the `i`-th son. -/
def backwardNode (tr : Bool) (t : CRef G) (k ktree : Nat) (V : Mat) (n : Nat) (son : Fin n → CBas G)
    (call : Fin n → (Yt Yp : Mat) → VSt K → R (VSt K)) (Yt Yp : Mat) (s : VSt K) : R (VSt K) := do
  cassert (decide ((if tr then Yp.cols else Yp.rows) = t.cl.size))
  cassert (decide (Yt.rows = ktree))
  cassert (decide ((if tr then Yp.rows else Yp.cols) = Yt.cols))
  let (Yc, s) ← openMat Yt k 0 Yt.cols 0 s
  let s ← (if 0 < n then do
      let (s, ypoff, ytoff) ← foldFinM n (fun i (st : VSt K × Nat × Nat) =>
        if h : i.1 < t.nsons then do
          let (Yt1, s) ← openMat Yt (son i).k st.2.2 Yt.cols 0 st.1
          let s ← run (Dense.addmul 1 false (son i).E false Yc Yt1) s
          let s ← uninit s
          let (Yp1, s) ← openPart tr Yp (t.son ⟨i.1, h⟩).cl.size st.2.1 s
          let (Yt1, s) ← openMat Yt (son i).ktree st.2.2 Yt.cols 0 s
          let s ← call i Yt1 Yp1 s
          let s ← uninit s
          let s ← uninit s
          pure (s, st.2.1 + (t.son ⟨i.1, h⟩).cl.size, st.2.2 + (son i).ktree)
        else .error .ub) (s, 0, k)
      cassert (decide (ypoff = t.cl.size))
      cassert (decide (ytoff = ktree))
      pure s
    else do
      let (Yt1, s) ← openMat Yt t.cl.size k Yt.cols 0 s
      let s ← run (Dense.addmul 1 false V false Yc Yt1) s
      let s ← run (Dense.add 1 tr Yt1 Yp) s
      uninit s)
  uninit s

/-- clusterbasis.c:1306-1355 `backward_clusterbasis_amatrix(cb, Yt, Yp)` -/
def backwardMat : CBas G → (Yt Yp : Mat) → VSt K → R (VSt K)
  | mk t k ktree _ V _ n son, Yt, Yp, s => backwardNode false t k ktree V n son (fun i => backwardMat (son i)) Yt Yp s

/-- clusterbasis.c:1357-1407 `backward_clusterbasis_trans_amatrix(cb, Yt, Yp)`.  For the sons the function calls
`backward_clusterbasis_amatrix` (clusterbasis.c:1385). -/
def backwardTransMat : CBas G → (Yt Yp : Mat) → VSt K → R (VSt K)
  | mk t k ktree _ V _ n son, Yt, Yp, s => backwardNode true t k ktree V n son (fun i => backwardMat (son i)) Yt Yp s

/-- clusterbasis.c:1055-1093 `compress_clusterbasis_amatrix(cb, Xp, Xt)` -/
def compressMat : CBas G → (Xp Xt : Mat) → VSt K → R (VSt K)
  | mk t k _ kbranch V _ n son, Xp, Xt, s => do
    cassert (decide (t.cl.size ≤ Xp.rows))
    cassert (decide (kbranch ≤ Xt.rows))
    let (Xc, s) ← openMat Xt k 0 Xt.cols 0 s
    let s ← run (Dense.clear Xc) s
    let s ← (if 0 < n then do
        let (s, xoff) ← foldFinM n (fun i (st : VSt K × Nat) =>
          if h : i.1 < t.nsons then do
            let (Xp1, s) ← openMat Xp (t.son ⟨i.1, h⟩).cl.size st.2 Xp.cols 0 st.1
            let (Xt1, s) ← openMat Xt (son i).kbranch k Xt.cols 0 s
            let s ← compressMat (son i) Xp1 Xt1 s
            let s ← uninit s
            let s ← uninit s
            let (Xt1, s) ← openMat Xt (son i).k k Xt.cols 0 s
            let s ← run (Dense.addmul 1 true (son i).E false Xt1 Xc) s
            let s ← uninit s
            pure (s, st.2 + (t.son ⟨i.1, h⟩).cl.size)
          else .error .ub) (s, 0)
        cassert (decide (xoff = t.cl.size))
        pure s
      else run (Dense.addmul 1 true V false Xp Xc) s)
    uninit s

/-- clusterbasis.c:1095-1152 `compress_parallel_clusterbasis_amatrix(cb, Xp, Xt, pardepth)` with `pardepth = 0` or without OpenMP: first
all submatrices are created, then the function is called for all sons, then the results are combined.  The three arrays of
submatrices are not modelled. -/
def compressPar : CBas G → (Xp Xt : Mat) → VSt K → R (VSt K)
  | mk t k _ kbranch V _ n son, Xp, Xt, s => do
    cassert (decide (t.cl.size ≤ Xp.rows))
    cassert (decide (kbranch ≤ Xt.rows))
    let (Xc, s) ← openMat Xt k 0 Xt.cols 0 s
    let s ← run (Dense.clear Xc) s
    let s ← (if 0 < n then do
        let (s, xoff) ← foldFinM n (fun i (st : VSt K × Nat) =>
          if h : i.1 < t.nsons then do
            let (_, s) ← openMat Xp (t.son ⟨i.1, h⟩).cl.size st.2 Xp.cols 0 st.1
            let (_, s) ← openMat Xt (son i).kbranch k Xt.cols 0 s
            let (_, s) ← openMat Xt (son i).k k Xt.cols 0 s
            pure (s, st.2 + (t.son ⟨i.1, h⟩).cl.size)
          else .error .ub) (s, 0)
        cassert (decide (xoff = t.cl.size))
        let (s, _) ← foldFinM n (fun i (st : VSt K × Nat) =>
          if h : i.1 < t.nsons then do
            let Xp1 ← Dense.initSub Xp (t.son ⟨i.1, h⟩).cl.size st.2 Xp.cols 0
            let Xt1 ← Dense.initSub Xt (son i).kbranch k Xt.cols 0
            let s ← compressPar (son i) Xp1 Xt1 st.1
            pure (s, st.2 + (t.son ⟨i.1, h⟩).cl.size)
          else .error .ub) (s, 0)
        foldFinM n (fun i (s : VSt K) => do
          let Xr1 ← Dense.initSub Xt (son i).k k Xt.cols 0
          let s ← run (Dense.addmul 1 true (son i).E false Xr1 Xc) s
          let s ← uninit s
          let s ← uninit s
          uninit s) s
      else run (Dense.addmul 1 true V false Xp Xc) s)
    uninit s

end CBas
end H2
