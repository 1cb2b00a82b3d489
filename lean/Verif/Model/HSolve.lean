import Verif.Model.Harith
import Verif.Model.HMatrix
import Verif.Model.Factor
import Verif.Core.Down
import Verif.Spec.Dense

/-!
# Triangular solves and the LR decomposition of H-matrices (`Library/harith.c`)

The matrices are values as in `Model/Harith`.  The dense kernels `triangularsolve_amatrix` and `lrdecomp_amatrix` are the
memory-level models of `Model/Factor`, run on a memory that holds the two matrices.  The solvers for vectors work on H-matrices
in memory (`Model/HMatrix`).

The functions come in variants for lower and upper triangular matrices, with the matrix `a` and the right-hand side `xp` taken as
they are or as adjoints (suffixes `nn`, `nt`, `tn`, `tt`).  They differ in the direction of the loops and in the indices of the
sons of `a` and are modelled by one function with flags: the loops run upwards if exactly one of `lower` and `atrans` holds, and
`a->son[j + i * sons]` is used without, `a->son[i + j * sons]` with `atrans`.
-/

namespace H2
namespace HV
variable {G K : Type} [Field K] [StarRing K]

/-- A memory that contains the entries of `a` and, behind them, those of `x`. -/
def loadMem (a x : VMat K) : Mem K := fun c =>
  if c < a.rows * a.cols then some (a.e (c % a.rows) (c / a.rows))
  else if c < a.rows * a.cols + x.rows * x.cols then
    some (x.e ((c - a.rows * a.cols) % x.rows) ((c - a.rows * a.cols) / x.rows))
  else none

/-- factorizations.c:581-589 `triangularsolve_amatrix(alower, aunit, atrans, a, xtrans, x)`: the new value of `x`. -/
def denseSolve (lower unit atrans : Bool) (a : VMat K) (xtrans : Bool) (x : VMat K) : R (VMat K) := do
  let X : Mat := ⟨a.rows * a.cols, x.rows, x.rows, x.cols⟩
  let m ← Dense.trisolve lower unit atrans ⟨0, a.rows, a.rows, a.cols⟩ xtrans X (loadMem a x)
  pure ⟨x.rows, x.cols, X.val m⟩

/-- harith.c:6118-6121 `res = lrdecomp_amatrix(a->f); assert(res == 0)`: the new value of `a->f`. -/
noncomputable def denseLr (a : VMat K) : R (VMat K) := do
  let A : Mat := ⟨0, a.rows, a.rows, a.cols⟩
  let (res, m) ← Dense.lrdecomp A (loadMem a (.zero 0 0))
  cassert (decide (res = 0))
  pure ⟨a.rows, a.cols, A.val m⟩

/-- `for (i = 0; i < n; i++)` or `for (i = n; i-- > 0;)` -/
def sweep {σ : Type} (fwd : Bool) (n : Nat) (body : Nat → σ → R σ) (s : σ) : R σ :=
  if fwd then forUp 0 n body s else forDown body n s
/-- `for (j = i + 1; j < n; j++)` or `for (j = i; j-- > 0;)` -/
def sweepRest {σ : Type} (fwd : Bool) (i n : Nat) (body : Nat → σ → R σ) (s : σ) : R σ :=
  if fwd then forUp (i + 1) n body s else forDown body i s
/-- `roff -= size` at the beginning of the body of a loop running downwards -/
def offAt (fwd : Bool) (roff size : Nat) : R Nat :=
  if fwd then .ok roff else if size ≤ roff then .ok (roff - size) else .error .ub
/-- `roff += size` at the end of the body of a loop running upwards -/
def offNext (fwd : Bool) (roff size : Nat) : Nat := if fwd then roff + size else roff

/-- `son[i + j * rsons]` -/
def getSon {m n : Nat} (son : Fin m → Fin n → HV G K) (i j : Nat) : R (HV G K) :=
  if h : i < m ∧ j < n then .ok (son ⟨i, h.1⟩ ⟨j, h.2⟩) else .error .ub
/-- `son[i + j * rsons]`, changed by `f` -/
def atSon {m n : Nat} (son : Fin m → Fin n → HV G K) (i j : Nat) (f : HV G K → R (HV G K)) : R (Fin m → Fin n → HV G K) :=
  if h : i < m ∧ j < n then do
    let v ← f (son ⟨i, h.1⟩ ⟨j, h.2⟩)
    pure (setSon son ⟨i, h.1⟩ ⟨j, h.2⟩ v)
  else .error .ub

/-- harith.c:4011-4059 `lowersolve_nn_hmatrix_amatrix(aunit, a, xp)`, 4061-4109 `lowersolve_nt_hmatrix_amatrix`,
4111-4159 `lowersolve_tn_hmatrix_amatrix`, 4161-4208 `lowersolve_tt_hmatrix_amatrix`, 4228-4276 `uppersolve_nn_hmatrix_amatrix`,
4278-4325 `uppersolve_nt_hmatrix_amatrix`, 4327-4375 `uppersolve_tn_hmatrix_amatrix`, 4377-4424 `uppersolve_tt_hmatrix_amatrix`. -/
def triSolveHA (lower unit atrans xtrans : Bool) : HV G K → VMat K → R (VMat K)
  | full t s f, x => do
    cassert (t.same s)
    cassert (decide (s.cl.size = x.orows xtrans))
    denseSolve lower unit atrans f xtrans x
  | rk t s _, x => do
    cassert (t.same s)
    cassert (decide (s.cl.size = x.orows xtrans))
    .error .assertFail
  | super t s rsons csons son, x => do
    cassert (t.same s)
    cassert (decide (s.cl.size = x.orows xtrans))
    cassert (decide (rsons = csons))
    let fwd := lower != atrans
    let (x, roff) ← sweep fwd rsons (fun i (st : VMat K × Nat) =>
      if h : i < rsons ∧ i < csons then do
        let ai ← getSon son i 0
        let roff ← offAt fwd st.2 ai.rsize
        let x1 ← osub xtrans st.1 ai.rsize roff
        let x1 ← triSolveHA lower unit atrans xtrans (son ⟨i, h.1⟩ ⟨i, h.2⟩) x1
        let (x, roff2) ← sweepRest fwd i rsons (fun j (st' : VMat K × Nat) => do
          let aj ← getSon son j 0
          let roff2 ← offAt fwd st'.2 aj.rsize
          let x2 ← osub xtrans st'.1 aj.rsize roff2
          let aji ← getSon son (if atrans then i else j) (if atrans then j else i)
          let x2 ← addmulHAA (-1) atrans aji xtrans x1 xtrans x2
          pure (oglue xtrans st'.1 roff2 x2, offNext fwd roff2 aj.rsize))
          (oglue xtrans st.1 roff x1, offNext fwd roff ai.rsize)
        cassert (decide (roff2 = if fwd then t.cl.size else 0))
        pure (x, offNext fwd roff ai.rsize)
      else .error .ub) (x, if fwd then 0 else t.cl.size)
    cassert (decide (roff = if fwd then t.cl.size else 0))
    pure x

/-- harith.c:4466-4482, 4489: the matrix `atmp` or `a` whose sons are used if `xp` is subdivided. -/
def sonsFor (a : HV G K) (div : Bool) : R (HV G K) :=
  match a with
  | full t s f => splitAm f t s div div
  | a => .ok a

/-- harith.c:4454-4509 `lowersolve_nn_hmatrix(aunit, a, tm, eps, xp)`, 4511-4566 `lowersolve_nt_hmatrix`,
4568-4623 `lowersolve_tn_hmatrix`, 4625-4680 `lowersolve_tt_hmatrix`, 4700-4755 `uppersolve_nn_hmatrix`,
4757-4812 `uppersolve_nt_hmatrix`, 4814-4869 `uppersolve_tn_hmatrix`, 4871-4926 `uppersolve_tt_hmatrix`.
The first argument is the block structure of `xp`, which does not change; `x` is its present content. -/
def triSolveH (T : TruncOps K) (lower unit atrans xtrans : Bool) : HV G K → HV G K → HV G K → R (HV G K)
  | full .., a, x => do
    cassert (a.rc.same a.cc)
    cassert (a.cc.same (x.orc xtrans))
    match x with
    | full t s f => do
      let f ← triSolveHA lower unit atrans xtrans a f
      pure (full t s f)
    | _ => .error .ub
  | rk .., a, x => do
    cassert (a.rc.same a.cc)
    cassert (a.cc.same (x.orc xtrans))
    match x with
    | rk t s r =>
      if xtrans then do
        let B ← triSolveHA lower unit atrans false a r.B
        pure (rk t s ⟨r.A, B, r.k⟩)
      else do
        let A ← triSolveHA lower unit atrans false a r.A
        pure (rk t s ⟨A, r.B, r.k⟩)
    | _ => .error .ub
  | super _ _ sm sn ss, a, x => do
    cassert (a.rc.same a.cc)
    cassert (a.cc.same (x.orc xtrans))
    match x with
    | super t s m n xs => do
      let x0 ← getSon xs 0 0
      let a' ← sonsFor a (!(x0.orc xtrans).same (if xtrans then s else t))
      match a' with
      | super _ _ am an as => do
        cassert (decide (am = an))
        cassert (decide ((if xtrans then n else m) = am))
        let fwd := lower != atrans
        let xs ← forUp 0 (if xtrans then m else n) (fun k xs => sweep fwd am (fun i xs =>
          if h : (if xtrans then k else i) < sm ∧ (if xtrans then i else k) < sn then do
            let aii ← getSon as i i
            let xs ← atSon xs (if xtrans then k else i) (if xtrans then i else k)
              (triSolveH T lower unit atrans xtrans (ss ⟨_, h.1⟩ ⟨_, h.2⟩) aii)
            let xi ← getSon xs (if xtrans then k else i) (if xtrans then i else k)
            sweepRest fwd i am (fun j xs => do
              let aji ← getSon as (if atrans then i else j) (if atrans then j else i)
              atSon xs (if xtrans then k else j) (if xtrans then j else k) (fun xj =>
                if xtrans then addmul T (-1) false (!atrans) xi aji xj
                else addmul T (-1) atrans false aji xi xj)) xs
          else .error .ub) xs) xs
        pure (super t s m n xs)
      | _ => .error .assertFail
    | _ => .error .ub

/-- harith.c:4946-4954 `triangularinvmul_hmatrix(alower, aunit, atrans, a, tm, eps, xtrans, xp)`. -/
def triInvMul (T : TruncOps K) (lower unit atrans : Bool) (a : HV G K) (xtrans : Bool) (x : HV G K) : R (HV G K) :=
  triSolveH T lower unit atrans xtrans x a x

/-- harith.c:6109-6145 `lrdecomp_hmatrix(a, tm, eps)`; the first argument is the block structure of `a`. -/
noncomputable def lrdecompH (T : TruncOps K) : HV G K → HV G K → R (HV G K)
  | full .., a => do
    cassert (a.rc.same a.cc)
    match a with
    | full t s f => do
      let f ← denseLr f
      pure (full t s f)
    | _ => .error .ub
  | rk .., a => do
    cassert (a.rc.same a.cc)
    .error .assertFail
  | super _ _ sm sn ss, a => do
    cassert (a.rc.same a.cc)
    match a with
    | super t s m n as => do
      cassert (decide (m = n))
      let as ← forUp 0 m (fun k as =>
        if h : k < sm ∧ k < sn then do
          let as ← atSon as k k (lrdecompH T (ss ⟨k, h.1⟩ ⟨k, h.2⟩))
          let akk ← getSon as k k
          let as ← forUp (k + 1) m (fun j as => atSon as k j (fun x => triSolveH T true true false false x akk x)) as
          let as ← forUp (k + 1) m (fun i as => atSon as i k (fun x => triSolveH T false false true true x akk x)) as
          forUp (k + 1) m (fun j as => forUp (k + 1) m (fun i as => do
            let aik ← getSon as i k
            let akj ← getSon as k j
            atSon as i j (addmul T (-1) false false aik akj)) as) as
        else .error .ub) as
      pure (super t s m n as)
    | _ => .error .ub

end HV

namespace HMat
variable {G : Type} {K : Type} [Field K] [StarRing K]

/-- `son[i + j * rsons]` -/
def getSon {m n : Nat} (son : Fin m → Fin n → HMat G) (i j : Nat) : R (HMat G) :=
  if h : i < m ∧ j < n then .ok (son ⟨i, h.1⟩ ⟨j, h.2⟩) else .error .ub

/-- harith.c:3772-3816 `lowersolve_n_hmatrix_avector(aunit, a, xp)`, 3818-3863 `lowersolve_t_hmatrix_avector`,
3874-3918 `uppersolve_n_hmatrix_avector`, 3920-3965 `uppersolve_t_hmatrix_avector`. -/
def triSolveVec (lower unit trans : Bool) : HMat G → Vec → Mem K → R (Mem K)
  | full t s _ f, x, m => do
    cassert (t.same s)
    cassert (decide (s.cl.size = x.dim))
    Dense.trisolveVec lower unit trans f x m
  | rk t s _ _, x, _ => do
    cassert (t.same s)
    cassert (decide (s.cl.size = x.dim))
    .error .assertFail
  | super t s _ rsons csons son, x, m => do
    cassert (t.same s)
    cassert (decide (s.cl.size = x.dim))
    cassert (decide (rsons = csons))
    let fwd := lower != trans
    let (m, roff) ← HV.sweep fwd rsons (fun i (st : Mem K × Nat) =>
      if h : i < rsons ∧ i < csons then do
        let ai ← getSon son i 0
        let roff ← HV.offAt fwd st.2 ai.rsize
        let x1 ← Dense.initSubVec x ai.rsize roff
        let m ← triSolveVec lower unit trans (son ⟨i, h.1⟩ ⟨i, h.2⟩) x1 st.1
        let (m, roff2) ← HV.sweepRest fwd i rsons (fun j (st' : Mem K × Nat) => do
          let aj ← getSon son j 0
          let roff2 ← HV.offAt fwd st'.2 aj.rsize
          let x2 ← Dense.initSubVec x aj.rsize roff2
          let m ← (if trans then do
              let aij ← getSon son i j
              fastaddevaltrans (-1) aij x1 x2 st'.1
            else do
              let aji ← getSon son j i
              fastaddeval (-1) aji x1 x2 st'.1)
          pure (m, HV.offNext fwd roff2 aj.rsize)) (m, HV.offNext fwd roff ai.rsize)
        cassert (decide (roff2 = if fwd then t.cl.size else 0))
        pure (m, HV.offNext fwd roff ai.rsize)
      else .error .ub) (m, if fwd then 0 else t.cl.size)
    cassert (decide (roff = if fwd then t.cl.size else 0))
    pure m

/-- `for (i = 0; i < n; i++) xp->v[i] = x->v[idx[i]];` without a test of the index -/
def gatherN (idx : Arr Nat) (t : CRef G) (n : Nat) (v vp : Vec) (m : Mem K) : R (Mem K) :=
  forUp 0 n (fun i m => do
    let ip ← idx.get (t.cl.off + i)
    let x ← m.read (v.addr ip)
    m.write (vp.addr i) x) m

/-- `for (i = 0; i < n; i++) x->v[idx[i]] = xp->v[i];` without a test of the index -/
def scatterN (idx : Arr Nat) (t : CRef G) (n : Nat) (v vp : Vec) (m : Mem K) : R (Mem K) :=
  forUp 0 n (fun i m => do
    let ip ← idx.get (t.cl.off + i)
    let x ← m.read (vp.addr i)
    m.write (v.addr ip) x) m

/-- The common frame of the functions below: permute `x`, call `f`, permute back.  `px` is the address chosen by the
allocator. -/
def permutedN (idx : Arr Nat) (px : Nat) (junk : Nat → K) (a : HMat G) (f : Vec → Mem K → R (Mem K)) (x : Vec) (m : Mem K) :
    R (Mem K) := do
  cassert (decide (x.dim = a.rsize))
  let (xp, m) := newVec px a.rsize junk m
  let m ← gatherN idx a.rc a.rsize x xp m
  let m ← f xp m
  let m ← scatterN idx a.rc a.rsize x xp m
  pure (delVec xp m)

/-- harith.c:3986-4009 `triangularsolve_hmatrix_avector(alower, aunit, atrans, a, x)`. -/
def triangularsolve (idx : Arr Nat) (px : Nat) (junk : Nat → K) (lower unit trans : Bool) (a : HMat G) (x : Vec) (m : Mem K) :
    R (Mem K) := permutedN idx px junk a (triSolveVec lower unit trans a) x m

/-- harith.c:6197-6206 `lrsolve_hmatrix_avector(atrans, a, x)` with 6147-6170 `lrsolve_n_hmatrix_avector` and
6172-6195 `lrsolve_t_hmatrix_avector`. -/
def lrsolve (idx : Arr Nat) (px : Nat) (junk : Nat → K) (trans : Bool) (a : HMat G) (x : Vec) (m : Mem K) : R (Mem K) :=
  permutedN idx px junk a (fun xp m =>
    if trans then do
      let m ← triSolveVec false false true a xp m
      triSolveVec true true true a xp m
    else do
      let m ← triSolveVec true true false a xp m
      triSolveVec false false false a xp m) x m

/-- harith.c:6307-6330 `cholsolve_hmatrix_avector(a, x)`. -/
def cholsolve (idx : Arr Nat) (px : Nat) (junk : Nat → K) (a : HMat G) (x : Vec) (m : Mem K) : R (Mem K) :=
  permutedN idx px junk a (fun xp m => do
    let m ← triSolveVec true false false a xp m
    triSolveVec true false true a xp m) x m

end HMat
end H2
