import Verif.Model.H2Matrix
import Verif.Model.HSolve

/-!
# Triangular solves with H2-matrices (`Library/h2arith.c`)

The matrices are trees in memory (`Model/H2Matrix`).  The functions come in variants for the lower and the upper triangular part,
without and with adjoints; they differ in the direction of the loops, in the indices of the sons and in the roles of the row and
column basis and are modelled by one function with flags, as in `Model/HSolve`: the loops run upwards if exactly one of `lower` and
`trans` holds.

Temporary vectors are obtained from an allocator `alloc` that returns an address for each memory and dimension.
-/

namespace H2
namespace H2Mat
open VSt
variable {G : Type} {K : Type} [Field K] [StarRing K]

/-- `t->son[i]->size` -/
def sonSize (t : CRef G) (i : Nat) : R Nat :=
  if h : i < t.nsons then .ok (t.son ⟨i, h⟩).cl.size else .error .ub

/-- `son[i + j * sons]` -/
def getSon {m n : Nat} (son : Fin m → Fin n → H2Mat G) (i j : Nat) : R (H2Mat G) :=
  if h : i < m ∧ j < n then .ok (son ⟨i, h.1⟩ ⟨j, h.2⟩) else .error .ub

/-- h2arith.c:1185-1194 (`b = a->son[j + i * sons]`, also 1305-1314) and, with `trans`, 1238-1248 and 1358-1368
(`b = a->son[i + j * sons]`): `x2 -= b x1` or `x2 -= b^* x1` by a forward transformation, the coupling step, and a backward
transformation, with two temporary vectors. -/
def subMul (alloc : Mem K → Nat → Nat) (junk : Nat → K) (trans : Bool) (b : H2Mat G) (x1 x2 : Vec) (s : VSt K) : R (VSt K) := do
  let sb := if trans then b.rb else b.cb
  let tb := if trans then b.cb else b.rb
  let (x1t, s) := openNew (alloc s.mem sb.ktree) sb.ktree junk s
  let (x2t, s) := openNew (alloc s.mem tb.ktree) tb.ktree junk s
  let s ← run (Dense.clearVec x2t) s
  let s ← CBas.forwardNoperm sb x1 x1t s
  let s ← (if trans then fastaddevaltrans (-1) b x1t x2t s else fastaddeval (-1) b x1t x2t s)
  let s ← CBas.backwardNoperm tb x2t x2 s
  let s ← uninitOwner x1t s
  uninitOwner x2t s

/-- h2arith.c:1182 `roff2 += t->son[j - 1]->size` for the loops running upwards, 1302 `roff2 -= t->son[j]->size` for the loops
running downwards -/
def nextBlock (fwd : Bool) (t : CRef G) (j roff2 : Nat) : R Nat :=
  if fwd then do
    let d ← sonSize t (j - 1)
    pure (roff2 + d)
  else do
    let d ← sonSize t j
    if d ≤ roff2 then pure (roff2 - d) else .error .ub

/-- h2arith.c:1157-1207 `lowersolve_h2matrix_1_avector(unit, a, x)` (`lower`), 1211-1261 `lowersolve_h2matrix_2_avector` (`trans`),
1277-1326 `uppersolve_h2matrix_1_avector`, 1330-1380 `uppersolve_h2matrix_2_avector` (`lower` and `trans`). -/
def triSolveVec (alloc : Mem K → Nat → Nat) (junk : Nat → K) (lower unit trans : Bool) : H2Mat G → Vec → VSt K → R (VSt K)
  | super rb cb rsons csons son, x, s => do
    cassert (!(lower && !trans) || decide (rsons = csons))
    cassert (rb.t.same cb.t)
    cassert (decide (rb.t.cl.size = x.dim))
    let fwd := lower != trans
    let (s, _) ← HV.sweep fwd rsons (fun i (st : VSt K × Nat) =>
      if h : i < rsons ∧ i < csons then do
        let d ← sonSize rb.t i
        let roff1 ← HV.offAt fwd st.2 d
        let (x1, s) ← openSub x d roff1 st.1
        let s ← triSolveVec alloc junk lower unit trans (son ⟨i, h.1⟩ ⟨i, h.2⟩) x1 s
        let (s, _) ← HV.sweepRest fwd i rsons (fun j (st' : VSt K × Nat) => do
          let roff2 ← nextBlock fwd rb.t j st'.2
          let d2 ← sonSize rb.t j
          let (x2, s) ← openSub x d2 roff2 st'.1
          let b ← getSon son (if trans then i else j) (if trans then j else i)
          let s ← subMul alloc junk trans b x1 x2 s
          let s ← uninit s
          pure (s, roff2)) (s, roff1)
        let s ← uninit s
        pure (s, HV.offNext fwd roff1 d)
      else .error .ub) (s, if fwd then 0 else rb.t.cl.size)
    pure s
  | full rb cb f, x, s => do
    cassert (rb.t.same cb.t)
    cassert (decide (rb.t.cl.size = x.dim))
    run (Dense.trisolveVec lower unit trans f x) s
  | zero rb cb, x, _ => do
    cassert (rb.t.same cb.t)
    cassert (decide (rb.t.cl.size = x.dim))
    .error .assertFail
  | uni rb cb _, x, _ => do
    cassert (rb.t.same cb.t)
    cassert (decide (rb.t.cl.size = x.dim))
    .error .assertFail

/-- h2arith.c:1266-1273 `lowersolve_h2matrix_avector(unit, atrans, a, x)`: the lower triangular matrix is the lower part of `a` or
the adjoint of the upper part. -/
def lowersolve (alloc : Mem K → Nat → Nat) (junk : Nat → K) (unit atrans : Bool) (a : H2Mat G) (x : Vec) (s : VSt K) : R (VSt K) :=
  if !atrans then triSolveVec alloc junk true unit false a x s else triSolveVec alloc junk false unit true a x s

/-- h2arith.c:1385-1392 `uppersolve_h2matrix_avector(unit, atrans, a, x)`: the upper triangular matrix is the upper part of `a` or
the adjoint of the lower part. -/
def uppersolve (alloc : Mem K → Nat → Nat) (junk : Nat → K) (unit atrans : Bool) (a : H2Mat G) (x : Vec) (s : VSt K) : R (VSt K) :=
  if !atrans then triSolveVec alloc junk false unit false a x s else triSolveVec alloc junk true unit true a x s

/-- h2arith.c:2555-2582 `lrsolve_h2matrix_avector(L, R, x)`; `lidx` and `ridx` are the index arrays of the column cluster tree of
`L` and of the row cluster tree of `R`. -/
def lrsolve (lidx ridx : Arr Nat) (alloc : Mem K → Nat → Nat) (junk : Nat → K) (L U : H2Mat G) (x : Vec) (s : VSt K) :
    R (VSt K) := do
  let (xp, s) := openNew (alloc s.mem x.dim) x.dim junk s
  let s ← run (HMat.gather lidx L.cb.t x xp) s
  let s ← lowersolve alloc junk true false L xp s
  let s ← uppersolve alloc junk false false U xp s
  let s ← run (HMat.scatter ridx U.rb.t x xp) s
  uninitOwner xp s

/-- h2arith.c:2657-2684 `cholsolve_h2matrix_avector(h2, x)`; `cidx` and `ridx` are the index arrays of the two cluster trees. -/
def cholsolve (cidx ridx : Arr Nat) (alloc : Mem K → Nat → Nat) (junk : Nat → K) (h : H2Mat G) (x : Vec) (s : VSt K) :
    R (VSt K) := do
  cassert (decide (x.dim = h.cb.t.cl.size))
  let (xp, s) := openNew (alloc s.mem x.dim) x.dim junk s
  let s ← run (HMat.gather cidx h.cb.t x xp) s
  let s ← lowersolve alloc junk false false h xp s
  let s ← uppersolve alloc junk false true h xp s
  let s ← run (HMat.scatter ridx h.rb.t x xp) s
  uninitOwner xp s

end H2Mat
end H2
