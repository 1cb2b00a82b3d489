import Verif.Model.BlockIter
import Verif.Model.HMatrix

/-! Enumeration of the submatrices of an H-matrix (`Library/hmatrix.c`). -/

namespace H2
namespace HMat
variable {G : Type _}

/-- hmatrix.c:947-960: the pointer passed for the son `son[i + j * rsons]`: 0 if `hm` is 0 or has no sons (the numbers of sons agree with those of the block, see the
assertions in lines 955 and 956). -/
def sonPtr (hm : Option (HMat G)) (i j : Nat) : Option (HMat G) :=
  match hm with
  | some (super _ _ _ m n son) => if h : i < m ∧ j < n then some (son ⟨i, h.1⟩ ⟨j, h.2⟩) else none
  | _ => none

/-- hmatrix.c:955-956: `assert(b->rsons == hm->rsons); assert(b->csons == hm->csons);` -/
def sonCheck (m n : Nat) (hm : Option (HMat G)) : R Unit := match hm with
  | some (super _ _ _ m' n' _) => do
    cassert (decide (m = m'))
    cassert (decide (n = n'))
  | _ => pure ()

/-- hmatrix.c:940-941: `assert(hm->rc == b->rc); assert(hm->cc == b->cc);`, undefined for the null pointer; `dbg` states whether assertions are compiled. -/
def entryCheck (dbg : Bool) (rc cc : CRef G) (hm : Option (HMat G)) : R Unit :=
  if dbg then match hm with
    | none => .error .ub
    | some h => do
      cassert (h.rc.same rc)
      cassert (h.cc.same cc)
  else pure ()

/-- hmatrix.c:934-967 `enumerate(b, bname, hm, hn)`; `cap` is the number of entries of `hn`, an entry is a pointer, 0 or a matrix, once it has been written.  `dbg` only
concerns the assertions that access `hm`; matrices with other numbers of sons than the block count as errors in any case. -/
def enumerate (dbg : Bool) (cap : Nat) : Block G → Nat → Option (HMat G) → (Nat → Option (Option (HMat G))) → R (Nat → Option (Option (HMat G)))
  | .mk rc cc _ d m n son, bname, hm, hn => do
    entryCheck dbg rc cc hm
    if cap ≤ bname then throw .ub
    sonCheck m n hm
    let st ← foldFinM n (fun j (st : (Nat → Option (Option (HMat G))) × Nat) =>
        foldFinM m (fun i (st : (Nat → Option (Option (HMat G))) × Nat) => do
          let hn ← enumerate dbg cap (son i j) st.2 (sonPtr hm i j) st.1
          pure (hn, st.2 + (son i j).desc)) st)
      ((fun k => if k = bname then some hm else hn k), bname + 1)
    cassert (decide (st.2 = bname + d))
    pure st.1

/-- hmatrix.c:969-979 `enumerate_hmatrix(b, hm)`. -/
def enumerateHmatrix (dbg : Bool) (b : Block G) (hm : Option (HMat G)) : R (Nat → Option (Option (HMat G))) :=
  enumerate dbg b.desc b 0 hm (fun _ => none)

end HMat
end H2
