import Verif.Model.CbMatrix

/-! Expansion of a matrix by a single cluster basis matrix (`Library/clusterbasis.c`); as in `Model/CbMatrix.lean`. -/

namespace H2
namespace CBas
open VSt
variable {G : Type} {K : Type} [Field K] [StarRing K]

/-- clusterbasis.c:1154-1195 `expand_clusterbasis_amatrix(cb, Yt, Yp)` -/
def expandMat : CBas G → (Yt Yp : Mat) → VSt K → R (VSt K)
  | mk t k _ kbranch V _ n son, Yt, Yp, s => do
    cassert (decide (Yt.rows = kbranch))
    let (Yc, s) ← openMat Yt k 0 Yt.cols 0 s
    let s ← (if 0 < n then do
        let (s, off) ← foldFinM n (fun i (st : VSt K × Nat) => do
          let (Yt1, s) ← openMat Yt (son i).k k Yt.cols 0 st.1
          let s ← run (Dense.clear Yt1) s
          let s ← run (Dense.addmul 1 false (son i).E false Yc Yt1) s
          let s ← uninit s
          let (Yt1, s) ← openMat Yt (son i).kbranch k Yt.cols 0 s
          let (Yp1, s) ← openMat Yp (son i).size st.2 Yt.cols 0 s
          let s ← expandMat (son i) Yt1 Yp1 s
          let s ← uninit s
          let s ← uninit s
          pure (s, st.2 + (son i).size)) (s, 0)
        cassert (decide (off = t.cl.size))
        pure s
      else run (Dense.addmul 1 false V false Yc Yp) s)
    uninit s

end CBas
end H2
