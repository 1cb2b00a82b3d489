import Verif.Model.FactorChol

/-!
# Householder factorizations (`factorizations.c:2152-3038`, code without BLAS)

`field` is `ℝ` or `ℂ` (`RCLike`).  `tiny` is `H2_ALMOST_ZERO`, `sgn` the function `SIGN1` (`sgnReal` or `sgnComplex`).  The vector `tau` is
separately allocated and owns its storage (an `Arr`), the matrices and vectors `x`, `q` are windows of the memory.
-/

namespace H2.Dense
variable {𝕜 : Type} [RCLike 𝕜]

open Classical in
/-- basic.h:393-395 `SIGN1(x)`, real build -/
noncomputable def sgnReal (x : ℝ) : ℝ := if x < 0 then -1 else 1
open Classical in
/-- basic.h:380-391 `SIGN1(x)`, complex build -/
noncomputable def sgnComplex (tiny : ℝ) (x : ℂ) : ℂ :=
  if ‖x‖ ^ 2 ≤ tiny then 1 else (x.re * (1 / √(x.re * x.re + x.im * x.im)) : ℝ) + (x.im * (1 / √(x.re * x.re + x.im * x.im)) : ℝ) * Complex.I

/-- avector.c:177-187 `resize_avector(v, dim)`; the new storage holds `junk`. -/
def resizeTau (junk : Nat → 𝕜) (tau : Arr 𝕜) (dim : Nat) : Arr 𝕜 := if dim ≠ tau.n then ⟨dim, junk⟩ else tau

/-- factorizations.c:2197-2200, 2452-2455, 2461-2463: squared norm of the entries `k, …, rows - 1` of column `j` -/
def colNorm2 (a : Mat) (k j : Nat) (m : Mem 𝕜) : R ℝ :=
  forUp k a.rows (fun i norm2 => do
    let v ← m.read (a.addr i j)
    pure (norm2 + ‖v‖ ^ 2)) 0

/-- Application of the elementary reflection `k` to a vector with addresses `xa`, factorizations.c:2226-2234 and in the other functions:
`gamma = x[k]; for (i = k + 1; i < rows; i++) gamma += CONJ(aa[i + k * lda]) * x[i]; gamma *= beta; x[k] -= gamma; for (i = k + 1; i < rows; i++)
x[i] -= gamma * aa[i + k * lda];` -/
def applyRefl (a : Mat) (k : Nat) (beta : 𝕜) (xa : Nat → Nat) (m : Mem 𝕜) : R (Mem 𝕜) := do
  let gamma ← m.read (xa k)
  let gamma ← forUp (k + 1) a.rows (fun i gamma => do
    let u ← m.read (a.addr i k)
    let v ← m.read (xa i)
    pure (gamma + star u * v)) gamma
  let gamma := gamma * beta
  let v ← m.read (xa k)
  let m ← m.write (xa k) (v - gamma)
  forUp (k + 1) a.rows (fun i m => do
    let v ← m.read (xa i)
    let u ← m.read (a.addr i k)
    m.write (xa i) (v - gamma * u)) m

/-- factorizations.c:2201-2235 (also 2490-2526, 2597-2649): determine the reflection for column `k`, store it, and apply it to the columns behind it;
the result contains `tau[k]`. -/
noncomputable def houseStep (sgn : 𝕜 → 𝕜) (a : Mat) (k : Nat) (norm2 : ℝ) (m : Mem 𝕜) : R (𝕜 × Mem 𝕜) := do
  let norm := √norm2
  let diag ← m.read (a.addr k k)
  let adiag := ‖diag‖ + norm
  let alpha : 𝕜 := -sgn diag * (norm : 𝕜)
  let beta : ℝ := 1 / (norm2 + ‖diag‖ * norm)
  let beta : 𝕜 := ((beta * (adiag * adiag) : ℝ) : 𝕜)
  let gamma : 𝕜 := star (sgn diag) / (adiag : 𝕜)
  let m ← forUp (k + 1) a.rows (fun i m => do
    let v ← m.read (a.addr i k)
    m.write (a.addr i k) (v * gamma)) m
  let m ← m.write (a.addr k k) alpha
  let m ← forUp (k + 1) a.cols (fun j m => applyRefl a k beta (fun i => a.addr i j) m) m
  pure (beta, m)

open Classical in
/-- factorizations.c:2178-2238 `qrdecomp_amatrix(a, tau)` -/
noncomputable def qrdecomp (sgn : 𝕜 → 𝕜) (tiny : ℝ) (junk : Nat → 𝕜) (a : Mat) (tau : Arr 𝕜) (m : Mem 𝕜) : R (Arr 𝕜 × Mem 𝕜) :=
  let refl := min a.rows a.cols
  let tau := if tau.n < refl then resizeTau junk tau refl else tau
  forUp 0 refl (fun k st => do
    let norm2 ← colNorm2 a k k st.2
    if norm2 ≤ tiny then do
      let tau ← st.1.set k 0
      pure (tau, st.2)
    else do
      let (beta, m) ← houseStep sgn a k norm2 st.2
      let tau ← st.1.set k beta
      pure (tau, m)) (tau, m)

/-- state of the search for the column with the largest norm -/
structure PivSt where
  maxnorm2 : ℝ
  frobnorm2 : ℝ
  jmax : Nat

open Classical in
/-- factorizations.c:2452-2468 (also 2562-2580): the column with the largest remaining norm (and the squared Frobenius norm of all of them) -/
noncomputable def pivSearch (a : Mat) (k : Nat) (m : Mem 𝕜) : R PivSt := do
  let norm2 ← colNorm2 a k k m
  forUp (k + 1) a.cols (fun j s => do
    let norm2 ← colNorm2 a k j m
    let s : PivSt := if norm2 > s.maxnorm2 then ⟨norm2, s.frobnorm2, j⟩ else s
    pure { s with frobnorm2 := s.frobnorm2 + norm2 }) ⟨norm2, norm2, k⟩

/-- factorizations.c:2472-2476: swap the columns `k` and `jmax` -/
def swapCols (a : Mat) (k jmax : Nat) (m : Mem 𝕜) : R (Mem 𝕜) :=
  forUp 0 a.rows (fun i m => do
    let alpha ← m.read (a.addr i k)
    let v ← m.read (a.addr i jmax)
    let m ← m.write (a.addr i k) v
    m.write (a.addr i jmax) alpha) m

/-- factorizations.c:2478-2482: swap the pivots, if they are recorded (`colpiv != NULL`) -/
def swapPiv (colpiv : Option (Arr Nat)) (k jmax : Nat) : R (Option (Arr Nat)) :=
  match colpiv with
  | none => pure none
  | some p => do
    let j ← p.get k
    let v ← p.get jmax
    let p ← p.set k v
    let p ← p.set jmax j
    pure (some p)

/-- factorizations.c:2445-2449: initialize the column pivots -/
def initPiv (cols : Nat) (colpiv : Option (Arr Nat)) : R (Option (Arr Nat)) :=
  match colpiv with
  | none => pure none
  | some p => do
    let p ← forUp 0 cols (fun j p => p.set j j) p
    pure (some p)

/-- scaling factors, pivots and memory -/
structure QSt (𝕜 : Type) where
  tau : Arr 𝕜
  piv : Option (Arr Nat)
  mem : Mem 𝕜

/-- factorizations.c:2470-2483: move the column with the largest norm to position `k` -/
def pivSwap (a : Mat) (k jmax : Nat) (st : QSt 𝕜) : R (QSt 𝕜) :=
  if jmax ≠ k then do
    let m ← swapCols a k jmax st.mem
    let piv ← swapPiv st.piv k jmax
    pure ⟨st.tau, piv, m⟩
  else pure st

open Classical in
/-- factorizations.c:2427-2531 `qrdecomp_pivot_amatrix(a, tau, colpiv)` -/
noncomputable def qrdecompPivot (sgn : 𝕜 → 𝕜) (tiny : ℝ) (junk : Nat → 𝕜) (a : Mat) (tau : Arr 𝕜) (colpiv : Option (Arr Nat)) (m : Mem 𝕜) :
    R (Nat × QSt 𝕜) := do
  let refl := min a.rows a.cols
  let tau := if tau.n < refl then resizeTau junk tau refl else tau
  let piv ← initPiv a.cols colpiv
  let st ← forUp 0 refl (fun k st => do
    let s ← pivSearch a k st.mem
    let st ← pivSwap a k s.jmax st
    let norm2 := s.maxnorm2
    if norm2 ≤ tiny then do
      let tau ← st.tau.set k 0
      pure { st with tau := tau }
    else do
      let (beta, m) ← houseStep sgn a k norm2 st.mem
      let tau ← st.tau.set k beta
      pure { st with tau := tau, mem := m }) ⟨tau, piv, m⟩
  pure (refl, st)

/-- truncation.h: the fields of a truncation mode used here -/
structure TMode where
  frobenius : Bool
  absolute : Bool

/-- factorizations.c:2602 `tm && tm->absolute` -/
def isAbs : Option TMode → Bool
  | none => false
  | some t => t.absolute
/-- factorizations.c:2610 `tm && tm->frobenius` -/
def isFrob : Option TMode → Bool
  | none => false
  | some t => t.frobenius

open Classical in
/-- factorizations.c:2561-2651, the loop with `steps` rounds left; result: number of steps and final state -/
noncomputable def rankLoop (sgn : 𝕜 → 𝕜) (tm : Option TMode) (eps : ℝ) (a : Mat) : (steps k : Nat) → (firstnorm2 : ℝ) → QSt 𝕜 → R (Nat × QSt 𝕜)
  | 0, k, _, st => pure (k, st)
  | n + 1, k, firstnorm2, st => do
    let s ← pivSearch a k st.mem
    let st ← pivSwap a k s.jmax st
    let norm2 := s.maxnorm2
    let (stop, firstnorm2) :=
      if isAbs tm then (decide (s.frobnorm2 ≤ eps * eps), firstnorm2)
      else if k = 0 then (false, if isFrob tm then s.frobnorm2 else norm2)
      else (decide (s.frobnorm2 ≤ eps * eps * firstnorm2), firstnorm2)
    if stop then pure (k, st)
    else do
      let st ← (if norm2 = 0 then do
          let tau ← st.tau.set k 0
          pure { st with tau := tau }
        else do
          let (beta, m) ← houseStep sgn a k norm2 st.mem
          let tau ← st.tau.set k beta
          pure { st with tau := tau, mem := m })
      rankLoop sgn tm eps a n (k + 1) firstnorm2 st

/-- factorizations.c:2533-2656 `qrdecomp_rank_amatrix(a, tau, tm, eps, colpiv)` with avector.c:189-195 `shrink_avector` -/
noncomputable def qrdecompRank (sgn : 𝕜 → 𝕜) (junk : Nat → 𝕜) (tm : Option TMode) (eps : ℝ) (a : Mat) (tau : Arr 𝕜) (colpiv : Option (Arr Nat))
    (m : Mem 𝕜) : R (Nat × QSt 𝕜) := do
  let refl := min a.rows a.cols
  let tau := if tau.n < refl then resizeTau junk tau refl else tau
  let piv ← initPiv a.cols colpiv
  let (k, st) ← rankLoop sgn tm eps a refl 0 0 ⟨tau, piv, m⟩
  cassert (decide (k ≤ st.tau.n))
  pure (k, { st with tau := ⟨k, st.tau.v⟩ })

open Classical in
/-- factorizations.c:2821-2872 `qreval_amatrix_avector(qtrans, a, tau, x)` -/
noncomputable def qrevalVec (qtrans : Bool) (a : Mat) (tau : Arr 𝕜) (x : Vec) (m : Mem 𝕜) : R (Mem 𝕜) := do
  let refl := min (min a.rows a.cols) tau.n
  cassert (decide (a.rows ≤ x.dim))
  if qtrans then
    forUp 0 refl (fun k m => do
      let t ← tau.get k
      let beta := star t
      if beta ≠ 0 then applyRefl a k beta x.addr m else pure m) m
  else
    forDown (fun k m => do
      let beta ← tau.get k
      if beta ≠ 0 then applyRefl a k beta x.addr m else pure m) refl m

open Classical in
/-- factorizations.c:2874-2928 `qreval_amatrix(qtrans, a, tau, x)` -/
noncomputable def qreval (qtrans : Bool) (a : Mat) (tau : Arr 𝕜) (x : Mat) (m : Mem 𝕜) : R (Mem 𝕜) := do
  let refl := min (min a.rows a.cols) tau.n
  cassert (decide (a.rows ≤ x.rows))
  if qtrans then
    forUp 0 refl (fun k m => do
      let t ← tau.get k
      let beta := star t
      if beta ≠ 0 then forUp 0 x.cols (fun j m => applyRefl a k beta (fun i => x.addr i j) m) m else pure m) m
  else
    forDown (fun k m => do
      let beta ← tau.get k
      if beta ≠ 0 then forUp 0 x.cols (fun j m => applyRefl a k beta (fun i => x.addr i j) m) m else pure m) refl m

/-- factorizations.c:2931-2936 `qrsolve_amatrix_avector(a, tau, x)` -/
noncomputable def qrsolveVec (a : Mat) (tau : Arr 𝕜) (x : Vec) (m : Mem 𝕜) : R (Mem 𝕜) := do
  let m ← qrevalVec true a tau x m
  trisolveVec false false false a x m

/-- factorizations.c:2938-2967 `qrinvert_amatrix(a)`; the copy lives at the address `p` returned by the allocator -/
noncomputable def qrinvert (sgn : 𝕜 → 𝕜) (tiny : ℝ) (p : Nat) (junk junkT : Nat → 𝕜) (a : Mat) (m : Mem 𝕜) : R (Mem 𝕜) := do
  let n := a.rows
  cassert (decide (n = a.cols))
  let m := m.alloc p (n * n) junk
  let acopy : Mat := ⟨p, n, n, n⟩
  let m ← copy false a acopy m
  let (tau, m) ← qrdecomp sgn tiny junkT acopy ⟨n, junkT⟩ m
  let m ← identity a m
  let m ← forUp 0 n (fun i m => do
    let b ← initColumn a i
    qrsolveVec acopy tau b m) m
  pure (m.free p (n * n))

open Classical in
/-- factorizations.c:2996-3038 `qrexpand_amatrix(a, tau, q)` -/
noncomputable def qrexpand (a : Mat) (tau : Arr 𝕜) (q : Mat) (m : Mem 𝕜) : R (Mem 𝕜) := do
  let refl := min (min q.cols tau.n) (min a.rows a.cols)
  cassert (decide (a.rows ≤ q.rows))
  cassert (decide (q.cols ≤ a.rows))
  let m ← forUp 0 q.cols (fun j m => do
    let m ← forUp 0 a.rows (fun i m => m.write (q.addr i j) 0) m
    m.write (q.addr j j) 1) m
  forDown (fun k m => do
    let beta ← tau.get k
    if beta ≠ 0 then forUp k q.cols (fun j m => applyRefl a k beta (fun i => q.addr i j) m) m else pure m) refl m

end H2.Dense
