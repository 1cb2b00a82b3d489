import Verif.Model.HSolve

/-!
# Multiplication by triangular H-matrices (`Library/harith.c`)

Counterpart of `Model/HSolve`.  Again the variants for lower and upper triangular matrices, for `a` and its adjoint, are modelled by
one function with flags: `fwd` holds if exactly one of `lower` and `trans` holds.  The outer loop runs downwards if `fwd` holds,
otherwise upwards, the inner loop visits the remaining blocks in the opposite direction.
-/

namespace H2
namespace HV
variable {G K : Type} [Field K] [StarRing K]

/-- factorizations.c:1245-1253 `triangulareval_amatrix(alower, aunit, atrans, a, xtrans, x)`: the new value of `x`. -/
def denseEval (lower unit atrans : Bool) (a : VMat K) (xtrans : Bool) (x : VMat K) : R (VMat K) := do
  let X : Mat := ⟨a.rows * a.cols, x.rows, x.rows, x.cols⟩
  let m ← Dense.trieval lower unit atrans ⟨0, a.rows, a.rows, a.cols⟩ xtrans X (loadMem a x)
  pure ⟨x.rows, x.cols, X.val m⟩

/-- harith.c:5341-5397 `lowereval_n_hmatrix_amatrix(aunit, a, xtrans, xp)`, 5399-5455 `lowereval_t_hmatrix_amatrix`,
5467-5523 `uppereval_n_hmatrix_amatrix`, 5525-5581 `uppereval_t_hmatrix_amatrix`, 5593-5601 `triangularmul_hmatrix_amatrix`.
`xp1` and the windows `xp2` are disjoint parts of `xp`. -/
def triMulHA (lower unit atrans xtrans : Bool) : HV G K → VMat K → R (VMat K)
  | full t s f, x => do
    cassert (t.same s)
    cassert (decide (s.cl.size = x.orows xtrans))
    denseEval lower unit atrans f xtrans x
  | rk t s _, x => do
    cassert (t.same s)
    cassert (decide (s.cl.size = x.orows xtrans))
    .error .assertFail
  | super t s rsons csons son, x => do
    cassert (t.same s)
    cassert (decide (s.cl.size = x.orows xtrans))
    cassert (decide (rsons = csons))
    let fwd := lower != atrans
    let (x, roff) ← sweep (!fwd) rsons (fun i (st : VMat K × Nat) =>
      if h : i < rsons ∧ i < csons then do
        let ai ← getSon son i 0
        let roff ← offAt (!fwd) st.2 ai.rsize
        let x1 ← osub xtrans st.1 ai.rsize roff
        let (x, roff2) ← sweepRest fwd i rsons (fun j (st' : VMat K × Nat) => do
          let aj ← getSon son j 0
          let roff2 ← offAt fwd st'.2 aj.rsize
          let x2 ← osub xtrans st'.1 aj.rsize roff2
          let aji ← getSon son (if atrans then i else j) (if atrans then j else i)
          let x2 ← addmulHAA 1 atrans aji xtrans x1 xtrans x2
          pure (oglue xtrans st'.1 roff2 x2, offNext fwd roff2 aj.rsize)) (st.1, offNext fwd roff ai.rsize)
        cassert (decide (roff2 = if fwd then t.cl.size else 0))
        let x1 ← triMulHA lower unit atrans xtrans (son ⟨i, h.1⟩ ⟨i, h.2⟩) x1
        pure (oglue xtrans x roff x1, offNext (!fwd) roff ai.rsize)
      else .error .ub) (x, if fwd then t.cl.size else 0)
    cassert (decide (roff = if fwd then 0 else t.cl.size))
    pure x

/-- The number of block rows or block columns of `xp` that is compared to the number of sons of `a`: the block rows, or the block
columns if the adjoint of `xp` is used, except in harith.c:5699 (`lowereval_nt_hmatrix` with a subdivided matrix `a`). -/
def checkedSons (lower atrans xtrans : Bool) (a : HV G K) (m n : Nat) : Nat :=
  match a with
  | super .. => if xtrans then (if lower && !atrans then m else n) else m
  | _ => if xtrans then n else m

/-- harith.c:5603-5658 `lowereval_nn_hmatrix(aunit, a, tm, eps, xp)`, 5660-5715 `lowereval_nt_hmatrix`,
5717-5772 `lowereval_tn_hmatrix`, 5774-5829 `lowereval_tt_hmatrix`, 5849-5904 `uppereval_nn_hmatrix`,
5906-5961 `uppereval_nt_hmatrix`, 5963-6018 `uppereval_tn_hmatrix`, 6020-6075 `uppereval_tt_hmatrix`.
The first argument is the block structure of `xp`, which does not change; `x` is its present content. -/
def triMulH (T : TruncOps K) (lower unit atrans xtrans : Bool) : HV G K → HV G K → HV G K → R (HV G K)
  | full .., a, x => do
    cassert (a.rc.same a.cc)
    cassert (a.cc.same (x.orc xtrans))
    match x with
    | full t s f => do
      let f ← triMulHA lower unit atrans xtrans a f
      pure (full t s f)
    | _ => .error .ub
  | rk .., a, x => do
    cassert (a.rc.same a.cc)
    cassert (a.cc.same (x.orc xtrans))
    match x with
    | rk t s r =>
      if xtrans then do
        let B ← triMulHA lower unit atrans false a r.B
        pure (rk t s ⟨r.A, B, r.k⟩)
      else do
        let A ← triMulHA lower unit atrans false a r.A
        pure (rk t s ⟨A, r.B, r.k⟩)
    | _ => .error .ub
  | super _ _ sm sn ss, a, x => do
    cassert (a.rc.same a.cc)
    cassert (a.cc.same (x.orc xtrans))
    match x with
    | super t s m n xs => do
      let x0 ← getSon xs 0 0
      let a' ← sonsFor a (!(x0.orc xtrans).same (if xtrans then s else t))
      match a' with
      | super _ _ am an as => do
        cassert (decide (am = an))
        cassert (decide (checkedSons lower atrans xtrans a m n = am))
        let fwd := lower != atrans
        let xs ← forUp 0 (if xtrans then m else n) (fun k xs => sweep (!fwd) am (fun i xs =>
          if h : (if xtrans then k else i) < sm ∧ (if xtrans then i else k) < sn then do
            let xi ← getSon xs (if xtrans then k else i) (if xtrans then i else k)
            let xs ← sweepRest fwd i am (fun j xs => do
              let aji ← getSon as (if atrans then i else j) (if atrans then j else i)
              atSon xs (if xtrans then k else j) (if xtrans then j else k) (fun xj =>
                if xtrans then addmul T 1 false (!atrans) xi aji xj
                else addmul T 1 atrans false aji xi xj)) xs
            let aii ← getSon as i i
            atSon xs (if xtrans then k else i) (if xtrans then i else k)
              (triMulH T lower unit atrans xtrans (ss ⟨_, h.1⟩ ⟨_, h.2⟩) aii)
          else .error .ub) xs) xs
        pure (super t s m n xs)
      | _ => .error .assertFail
    | _ => .error .ub

/-- harith.c:6095-6103 `triangularmul_hmatrix(alower, aunit, atrans, a, tm, eps, xtrans, xp)` with 5831-5847 `lowereval_hmatrix`
and 6077-6093 `uppereval_hmatrix`. -/
def triangularmulH (T : TruncOps K) (lower unit atrans : Bool) (a : HV G K) (xtrans : Bool) (x : HV G K) : R (HV G K) :=
  triMulH T lower unit atrans xtrans x a x

end HV

namespace HMat
variable {G : Type} {K : Type} [Field K] [StarRing K]

/-- harith.c:5103-5147 `lowereval_n_hmatrix_avector(aunit, a, xp)`, 5149-5193 `lowereval_t_hmatrix_avector`,
5204-5248 `uppereval_n_hmatrix_avector`, 5250-5294 `uppereval_t_hmatrix_avector`, 5305-5313 `triangularmul_hmatrix_avector`. -/
def triMulVec (lower unit trans : Bool) : HMat G → Vec → Mem K → R (Mem K)
  | full t s _ f, x, m => do
    cassert (t.same s)
    cassert (decide (s.cl.size = x.dim))
    Dense.trievalVec lower unit trans f x m
  | rk t s _ _, x, _ => do
    cassert (t.same s)
    cassert (decide (s.cl.size = x.dim))
    .error .assertFail
  | super t s _ rsons csons son, x, m => do
    cassert (t.same s)
    cassert (decide (s.cl.size = x.dim))
    cassert (decide (rsons = csons))
    let fwd := lower != trans
    let (m, roff) ← HV.sweep (!fwd) rsons (fun i (st : Mem K × Nat) =>
      if h : i < rsons ∧ i < csons then do
        let ai ← getSon son i 0
        let roff ← HV.offAt (!fwd) st.2 ai.rsize
        let x1 ← Dense.initSubVec x ai.rsize roff
        let (m, roff2) ← HV.sweepRest fwd i rsons (fun j (st' : Mem K × Nat) => do
          let aj ← getSon son j 0
          let roff2 ← HV.offAt fwd st'.2 aj.rsize
          let x2 ← Dense.initSubVec x aj.rsize roff2
          let m ← (if trans then do
              let aij ← getSon son i j
              fastaddevaltrans 1 aij x1 x2 st'.1
            else do
              let aji ← getSon son j i
              fastaddeval 1 aji x1 x2 st'.1)
          pure (m, HV.offNext fwd roff2 aj.rsize)) (st.1, HV.offNext fwd roff ai.rsize)
        cassert (decide (roff2 = if fwd then t.cl.size else 0))
        let m ← triMulVec lower unit trans (son ⟨i, h.1⟩ ⟨i, h.2⟩) x1 m
        pure (m, HV.offNext (!fwd) roff ai.rsize)
      else .error .ub) (m, if fwd then t.cl.size else 0)
    cassert (decide (roff = if fwd then 0 else t.cl.size))
    pure m

/-- harith.c:5315-5339 `triangulareval_hmatrix_avector(alower, aunit, atrans, a, x)`. -/
def triangulareval (idx : Arr Nat) (px : Nat) (junk : Nat → K) (lower unit trans : Bool) (a : HMat G) (x : Vec) (m : Mem K) :
    R (Mem K) := do
  cassert (a.rc.same a.cc)
  permutedN idx px junk a (triMulVec lower unit trans a) x m

/-- harith.c:6258-6267 `lreval_hmatrix_avector(atrans, a, x)` with 6208-6231 `lreval_n_hmatrix_avector` and
6233-6256 `lreval_t_hmatrix_avector`. -/
def lreval (idx : Arr Nat) (px : Nat) (junk : Nat → K) (trans : Bool) (a : HMat G) (x : Vec) (m : Mem K) : R (Mem K) :=
  permutedN idx px junk a (fun xp m =>
    if trans then do
      let m ← triMulVec true true true a xp m
      triMulVec false false true a xp m
    else do
      let m ← triMulVec false false false a xp m
      triMulVec true true false a xp m) x m

/-- harith.c:6332-6355 `choleval_hmatrix_avector(a, x)`. -/
def choleval (idx : Arr Nat) (px : Nat) (junk : Nat → K) (a : HMat G) (x : Vec) (m : Mem K) : R (Mem K) :=
  permutedN idx px junk a (fun xp m => do
    let m ← triMulVec true false true a xp m
    triMulVec true false false a xp m) x m

end HMat
end H2
