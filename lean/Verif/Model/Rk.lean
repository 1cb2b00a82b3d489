import Verif.Model.Dense
import Mathlib.Algebra.Order.Field.Basic

/-!
# Low-rank matrices (`rkmatrix.c`) and the truncation strategy (`truncation.c`)
-/

namespace H2

/-- rkmatrix.h `struct _rkmatrix`: factors `A`, `B` and the rank `k`. -/
structure Rk where
  A : Mat
  B : Mat
  k : Nat

namespace Rk
open Dense
variable {K : Type _} [Field K] [StarRing K]

/-- rkmatrix.c:24-36 `init_sub_rkmatrix(r, src, rows, roff, cols, coff)`. -/
def initSub (src : Rk) (rows roff cols coff : Nat) : R Rk := do
  let A ← Dense.initSub src.A rows roff src.k 0
  let B ← Dense.initSub src.B cols coff src.k 0
  pure ⟨A, B, src.k⟩

/-- rkmatrix.c:77-83 `setrank_rkmatrix(r, k)`; `nbA`, `nbB` are the addresses returned by the allocator. -/
def setrank (r : Rk) (k nbA nbB : Nat) (junk : Nat → K) (m : Mem K) : R (Rk × Mem K) := do
  let (A, m) ← resize r.A r.A.rows k nbA junk m
  let (B, m) ← resize r.B r.B.rows k nbB junk m
  pure (⟨A, B, k⟩, m)

/-- rkmatrix.c:136-159 `copy_rkmatrix(atrans, a, b)`. -/
def copy (atrans : Bool) (a b : Rk) (nbA nbB : Nat) (junk : Nat → K) (m : Mem K) : R (Rk × Mem K) :=
  if atrans then do
    cassert (decide (a.A.rows = b.B.rows))
    cassert (decide (a.B.rows = b.A.rows))
    let (b, m) ← if b.k ≠ a.k then setrank b a.k nbA nbB junk m else pure (b, m)
    let m ← Dense.copy false a.A b.B m
    let m ← Dense.copy false a.B b.A m
    pure (b, m)
  else do
    cassert (decide (a.A.rows = b.A.rows))
    cassert (decide (a.B.rows = b.B.rows))
    let (b, m) ← if b.k ≠ a.k then setrank b a.k nbA nbB junk m else pure (b, m)
    let m ← Dense.copy false a.A b.A m
    let m ← Dense.copy false a.B b.B m
    pure (b, m)

/-- rkmatrix.c:161-165 `scale_rkmatrix(alpha, r)`. -/
def scale (alpha : K) (r : Rk) (m : Mem K) : R (Mem K) := Dense.scale alpha r.A m

/-- rkmatrix.c:179-202 `addeval_rkmatrix_avector(alpha, r, x, y)`. -/
def addeval (alpha : K) (r : Rk) (x y : Vec) (m : Mem K) : R (Mem K) := do
  cassert (decide (y.dim = r.A.rows))
  cassert (decide (x.dim = r.B.rows))
  cassert (decide (r.k ≤ r.A.cols))
  cassert (decide (r.k ≤ r.B.cols))
  forUp 0 r.k (fun nu m => do
    match initColumn r.A nu, initColumn r.B nu with
    | .ok ac, .ok bc => do
      let beta ← dotprodVec bc x m
      addVec (alpha * beta) ac y m
    | .error e, _ => throw e
    | _, .error e => throw e) m

/-- rkmatrix.c:204-228 `addevaltrans_rkmatrix_avector(alpha, r, x, y)`. -/
def addevaltrans (alpha : K) (r : Rk) (x y : Vec) (m : Mem K) : R (Mem K) := do
  cassert (decide (x.dim = r.A.rows))
  cassert (decide (y.dim = r.B.rows))
  cassert (decide (r.k ≤ r.A.cols))
  cassert (decide (r.k ≤ r.B.cols))
  forUp 0 r.k (fun nu m => do
    match initColumn r.A nu, initColumn r.B nu with
    | .ok ac, .ok bc => do
      let beta ← dotprodVec ac x m
      addVec (alpha * beta) bc y m
    | .error e, _ => throw e
    | _, .error e => throw e) m

/-- rkmatrix.c:230-238 `mvm_rkmatrix_avector(alpha, rtrans, r, x, y)`. -/
def mvm (alpha : K) (rtrans : Bool) (r : Rk) (x y : Vec) (m : Mem K) : R (Mem K) :=
  if rtrans then addevaltrans alpha r x y m else addeval alpha r x y m

/-- harith.c:514-536 `add_rkmatrix_amatrix(alpha, atrans, a, b)`. -/
def addAmatrix (alpha : K) (atrans : Bool) (a : Rk) (b : Mat) (m : Mem K) : R (Mem K) :=
  if atrans then do
    cassert (decide (a.B.rows = b.rows))
    cassert (decide (a.A.rows = b.cols))
    if a.k > 0 then addmul alpha false a.B true a.A b m else pure m
  else do
    cassert (decide (a.A.rows = b.rows))
    cassert (decide (a.B.rows = b.cols))
    if a.k > 0 then addmul alpha false a.A true a.B b m else pure m

end Rk

namespace Trunc

/-- truncation.h `struct _truncmode` (the fields used by `findrank_truncmode`). -/
structure Mode where
  frobenius : Bool
  absolute : Bool

variable {R' : Type} [Field R'] [LinearOrder R'] [IsStrictOrderedRing R']

/-- `while (k > 0 && (sum += ABSSQR(sigma->v[k-1])) <= bound) k--;` -/
def countDown (sigma : Arr R') (bound : R') : Nat → R' → R Nat
  | 0, _ => pure 0
  | k + 1, sum => do
    let s ← sigma.get k
    if sum + s * s ≤ bound then countDown sigma bound k (sum + s * s) else pure (k + 1)

/-- `while (k < sigma->dim && sigma->v[k] > t) k++;` with `n` rounds left; the threshold `t` is recomputed in each
round. -/
def countUp (sigma : Arr R') (t : R R') : Nat → Nat → R Nat
  | 0, k => pure k
  | n + 1, k => do
    let s ← sigma.get k
    let t' ← t
    if t' < s then countUp sigma t n (k + 1) else pure k

/-- truncation.c:104-142 `findrank_truncmode(tm, eps, sigma)`. -/
def findrank (tm : Option Mode) (eps : R') (sigma : Arr R') : R Nat :=
  match tm with
  | some ⟨true, true⟩ => countDown sigma (eps * eps) sigma.n 0
  | some ⟨true, false⟩ => do
    let norm ← forUp 0 sigma.n (fun k norm => do let s ← sigma.get k; pure (norm + s * s)) (0 : R')
    countDown sigma (eps * eps * norm) sigma.n 0
  | some ⟨false, true⟩ => countUp sigma (pure eps) sigma.n 0
  | some ⟨false, false⟩ | none => countUp sigma (do let s ← sigma.get 0; pure (eps * s)) sigma.n 0

end Trunc
end H2
