import Verif.Model.Ortho
import Verif.Model.Rk

/-!
# Truncated arithmetic of low-rank matrices (`Library/harith.c`)

The factors are values, as in `Model/Harith`.  The factorizations and triangular products are the memory-level functions of `Model/QR`, `Model/Factor`
and `Model/FactorTri`, applied to copies of the operands.  Windows that share memory with their father are modelled by `VMat.sub` and `VMat.glue`.

* The singular value decomposition `svd_amatrix` is a parameter (`TrEnv.svd`): in the usual configuration the function calls LAPACK.
* The `HARITH_*_QUICK_EXIT` macros are not defined.
* `add_xx_rkmatrix` contains the text of `trunc_xx_rkmatrix` behind the setup of the joined factors; this text is modelled once (`coreXx`).
-/

namespace H2

/-- the environment of the truncation: the constants and functions used by the QR factorization, and the function `svd_amatrix(c, sigma, u, vt)`
(eigensolvers.c), the result being the new values of `sigma`, `u`, and `vt` -/
structure TrEnv (𝕜 : Type) extends QrEnv 𝕜 where
  svd : VMat 𝕜 → R (Arr ℝ × VMat 𝕜 × VMat 𝕜)

namespace Dense
variable {𝕜 : Type} [RCLike 𝕜]

/-- factorizations.c:200-238 `diageval_realavector_amatrix(alpha, atrans, a, xtrans, x)` -/
noncomputable def diagevalReal (alpha : 𝕜) (atrans : Bool) (a : Arr ℝ) (xtrans : Bool) (x : Mat) (m : Mem 𝕜) : R (Mem 𝕜) :=
  if xtrans then do
    cassert (decide (x.cols ≤ a.n))
    if a.n < 1 ∨ x.rows < 1 then pure m
    else forUp 0 x.cols (fun i m => do
      let s ← a.get i
      let beta := if atrans then star alpha * (s : 𝕜) else star (alpha * (s : 𝕜))
      forUp 0 x.rows (fun j m => do
        let y ← m.read (x.addr j i)
        m.write (x.addr j i) (y * beta)) m) m
  else do
    cassert (decide (x.rows ≤ a.n))
    if a.n < 1 ∨ x.cols < 1 then pure m
    else forUp 0 x.rows (fun i m => do
      let s ← a.get i
      let beta := if atrans then alpha * star (s : 𝕜) else alpha * (s : 𝕜)
      forUp 0 x.cols (fun j m => do
        let y ← m.read (x.addr i j)
        m.write (x.addr i j) (y * beta)) m) m
end Dense

namespace VMat
variable {𝕜 : Type} [RCLike 𝕜]

/-- amatrix.c:549-576 `copy_sub_amatrix(atrans, a, b)`: the new value of `b` -/
def copySub (atrans : Bool) (a b : VMat 𝕜) : VMat 𝕜 :=
  ⟨b.rows, b.cols, fun i j => if i < a.orows atrans ∧ j < a.ocols atrans then a.oe atrans i j else b.e i j⟩
/-- amatrix.c:693-706 `scale_amatrix(alpha, a)` -/
def scale (alpha : 𝕜) (a : VMat 𝕜) : VMat 𝕜 := ⟨a.rows, a.cols, fun i j => a.e i j * alpha⟩
/-- amatrix.c:20-37 `init_amatrix(a, rows, cols)`: new memory has arbitrary content -/
def fresh (q : QrEnv 𝕜) (rows cols : Nat) : VMat 𝕜 := ⟨rows, cols, fun i j => q.junk (i + j * rows)⟩

/-- factorizations.c `qrdecomp_amatrix(a, tau)` with `tau` of length `dim`: the new values of `a` and `tau` -/
noncomputable def qrdecomp (q : QrEnv 𝕜) (a : VMat 𝕜) (dim : Nat) : R (VMat 𝕜 × Arr 𝕜) := do
  let (tau, m) ← Dense.qrdecomp q.sgn q.tiny q.junk (a.window 0) ⟨dim, q.junk⟩ (a.load 0 fun _ => none)
  pure (fetch (a.window 0) m, tau)
/-- factorizations.c:2874-2928 `qreval_amatrix(false, a, tau, x)`: the new value of `x` -/
noncomputable def qreval (a : VMat 𝕜) (tau : Arr 𝕜) (x : VMat 𝕜) : R (VMat 𝕜) := do
  let p := a.rows * a.cols
  let m ← Dense.qreval false (a.window 0) tau (x.window p) (x.load p (a.load 0 fun _ => none))
  pure (fetch (x.window p) m)
/-- factorizations.c `triangulareval_amatrix(false, false, false, a, true, x)`: the new value of `x` -/
def trievalT (a x : VMat 𝕜) : R (VMat 𝕜) := do
  let p := a.rows * a.cols
  let m ← Dense.trieval false false false (a.window 0) true (x.window p) (x.load p (a.load 0 fun _ => none))
  pure (fetch (x.window p) m)
/-- factorizations.c:1255-1447 `triangularaddmul_amatrix(1.0, false, false, a, false, true, b, c)`: the new value of `c` -/
def triaddmulT (a b c : VMat 𝕜) : R (VMat 𝕜) := do
  let p := a.rows * a.cols
  let p' := p + b.rows * b.cols
  let m ← Dense.triaddmul 1 false false (a.window 0) false true (b.window p) (c.window p') (c.load p' (b.load p (a.load 0 fun _ => none)))
  pure (fetch (c.window p') m)
/-- factorizations.c:200-238 `diageval_realavector_amatrix(1.0, atrans, sigma, xtrans, x)`: the new value of `x` -/
noncomputable def diageval (atrans : Bool) (sigma : Arr ℝ) (xtrans : Bool) (x : VMat 𝕜) : R (VMat 𝕜) := do
  let m ← Dense.diagevalReal 1 atrans sigma xtrans (x.window 0) (x.load 0 fun _ => none)
  pure (fetch (x.window 0) m)
/-- factorizations.c `copy_upper_amatrix(a, false, b)`, `b` being a new matrix of `rows` rows and `cols` columns -/
def upper (q : QrEnv 𝕜) (a : VMat 𝕜) (rows cols : Nat) : R (VMat 𝕜) := do
  let p := a.rows * a.cols
  let b := fresh q rows cols
  let m ← Dense.copyUpper (a.window 0) false (b.window p) (b.load p (a.load 0 fun _ => none))
  pure (fetch (b.window p) m)
end VMat

namespace Tr
variable {𝕜 : Type} [RCLike 𝕜] (env : TrEnv 𝕜) (tm : Option Trunc.Mode) (eps : ℝ)

/-- harith.c:43-69 and harith.c:644-671: `C = A B^*`, singular value decomposition, new factors -/
noncomputable def coreAb (a b : VMat 𝕜) : R (VRk 𝕜) := do
  let rows := a.rows
  let cols := b.rows
  let c ← VMat.addmul 1 false a true b (VMat.zero rows cols)
  let (sigma, u, vt) ← env.svd c
  let knew ← Trunc.findrank tm eps sigma
  let A := VMat.copySub false u (VMat.fresh env.toQrEnv rows knew)
  let B := VMat.copySub true vt (VMat.fresh env.toQrEnv cols knew)
  let A ← VMat.diageval true sigma true A
  pure ⟨A, B, knew⟩

/-- harith.c:98-140 and harith.c:716-756: `A = Q R`, `C = B R^*`, singular value decomposition, new factors -/
noncomputable def coreQb (a b : VMat 𝕜) : R (VRk 𝕜) := do
  let rows := a.rows
  let cols := b.rows
  let k := a.cols
  let (a, tau) ← VMat.qrdecomp env.toQrEnv a k
  let kr := min rows k
  let a1 ← a.sub kr 0 k 0
  let b ← VMat.trievalT a1 b
  let c ← b.sub cols 0 kr 0
  let (sigma, u, vt) ← env.svd c
  let knew ← Trunc.findrank tm eps sigma
  let B := VMat.copySub false u (VMat.fresh env.toQrEnv cols knew)
  let A := VMat.copySub true vt (VMat.zero rows knew)
  let A ← VMat.qreval a tau A
  let B ← VMat.diageval true sigma true B
  pure ⟨A, B, knew⟩

/-- harith.c:169-210 and harith.c:800-841: `B = Q R`, `C = A R^*`, singular value decomposition, new factors -/
noncomputable def coreAq (a b : VMat 𝕜) : R (VRk 𝕜) := do
  let rows := a.rows
  let cols := b.rows
  let k := a.cols
  let (b, tau) ← VMat.qrdecomp env.toQrEnv b k
  let kc := min cols k
  let b1 ← b.sub kc 0 k 0
  let a ← VMat.trievalT b1 a
  let c ← a.sub rows 0 kc 0
  let (sigma, u, vt) ← env.svd c
  let knew ← Trunc.findrank tm eps sigma
  let A := VMat.copySub false u (VMat.fresh env.toQrEnv rows knew)
  let B := VMat.copySub true vt (VMat.zero cols knew)
  let B ← VMat.qreval b tau B
  let A ← VMat.diageval true sigma true A
  pure ⟨A, B, knew⟩

/-- harith.c:240-292 and harith.c:886-949: `A = Q_A R_A`, `B = Q_B R_B`, `C = R_A R_B^*`, singular value decomposition, new factors -/
noncomputable def coreQq (a b : VMat 𝕜) : R (VRk 𝕜) := do
  let rows := a.rows
  let cols := b.rows
  let k := a.cols
  let (a, atau) ← VMat.qrdecomp env.toQrEnv a k
  let ak := min k rows
  let (b, btau) ← VMat.qrdecomp env.toQrEnv b k
  let bk := min k cols
  let a1 ← a.sub ak 0 k 0
  let b1 ← b.sub bk 0 k 0
  let c ← VMat.triaddmulT a1 b1 (VMat.zero ak bk)
  let (sigma, u, vt) ← env.svd c
  let knew ← Trunc.findrank tm eps sigma
  let u ← VMat.diageval true sigma true u
  let A := VMat.copySub false u (VMat.zero rows knew)
  let B := VMat.copySub true vt (VMat.zero cols knew)
  let A ← VMat.qreval a atau A
  let B ← VMat.qreval b btau B
  pure ⟨A, B, knew⟩

/-- harith.c:317-333 and harith.c:969-991: the choice of the algorithm -/
noncomputable def core (k : Nat) (a b : VMat 𝕜) : R (VRk 𝕜) :=
  if k < a.rows then (if k < b.rows then coreQq env tm eps a b else coreQb env tm eps a b)
  else (if k < b.rows then coreAq env tm eps a b else coreAb env tm eps a b)

/-- harith.c:299-333 `trunc_rkmatrix(tm, eps, r)` -/
noncomputable def trunc (r : VRk 𝕜) : R (VRk 𝕜) := do
  cassert (decide (r.A.cols = r.k))
  cassert (decide (r.B.cols = r.k))
  core env tm eps r.k r.A r.B

open Classical in
/-- harith.c:622-624: `if (alpha != 1.0) scale_amatrix(alpha, a1)` -/
noncomputable def scaled (alpha : Option 𝕜) (w : VMat 𝕜) : VMat 𝕜 :=
  match alpha with
  | none => w
  | some alpha => if alpha ≠ 1 then VMat.scale alpha w else w

/-- harith.c:618-637: the matrix `(alpha X_src, X_trg)`, for `B` without the scaling -/
noncomputable def joined (alpha : Option 𝕜) (rows : Nat) (x : VMat 𝕜) (kx : Nat) (y : VMat 𝕜) (ky : Nat) : R (VMat 𝕜) := do
  let a := VMat.fresh env.toQrEnv rows (ky + kx)
  let w ← a.sub rows 0 kx 0
  let w ← VMat.copy false x w.rows w.cols
  let a := a.glue 0 0 (scaled alpha w)
  let w ← a.sub rows 0 ky kx
  let w ← VMat.copy false y w.rows w.cols
  pure (a.glue 0 kx w)

/-- harith.c:956-992 `add_rkmatrix(alpha, src, tm, eps, trg)` with harith.c:599-952 `add_ab_rkmatrix`, `add_qb_rkmatrix`, `add_aq_rkmatrix`,
`add_qq_rkmatrix` -/
noncomputable def addRk (alpha : 𝕜) (src trg : VRk 𝕜) : R (VRk 𝕜) := do
  let rows := trg.A.rows
  let cols := trg.B.rows
  cassert (decide (src.A.rows = rows))
  cassert (decide (src.B.rows = cols))
  let a ← joined env (some alpha) rows src.A src.k trg.A trg.k
  let b ← joined env none cols src.B src.k trg.B trg.k
  core env tm eps (src.k + trg.k) a b

/-- harith.c:339-508 `add_amatrix_rkmatrix(alpha, atrans, a, tm, eps, b)` -/
noncomputable def addAm (alpha : 𝕜) (atrans : Bool) (a : VMat 𝕜) (b : VRk 𝕜) : R (VRk 𝕜) := do
  (if atrans then do
    cassert (decide (a.rows = b.B.rows))
    cassert (decide (a.cols = b.A.rows))
  else do
    cassert (decide (a.rows = b.A.rows))
    cassert (decide (a.cols = b.B.rows)))
  let rows := b.A.rows
  let cols := b.B.rows
  if cols < rows then do
    let z ← VMat.copy atrans a rows cols
    let z := scaled (some alpha) z
    let z ← VMat.addmul 1 false b.A true b.B z
    let k := min rows cols
    let (z, tau) ← VMat.qrdecomp env.toQrEnv z k
    let z1 ← VMat.upper env.toQrEnv z k k
    let (sigma, u, vt) ← env.svd z1
    let knew ← Trunc.findrank tm eps sigma
    let u1 ← u.sub k 0 knew 0
    let A := VMat.copySub false u1 (VMat.zero rows knew)
    let A ← VMat.qreval z tau A
    let vt1 ← vt.sub knew 0 k 0
    let vt1 ← VMat.diageval false sigma false vt1
    let B ← VMat.copy true vt1 cols knew
    pure ⟨A, B, knew⟩
  else if rows < cols then do
    let z ← VMat.copy (!atrans) a cols rows
    let z := scaled (some alpha) z
    let z ← VMat.addmul 1 false b.B true b.A z
    let k := min rows cols
    let (z, tau) ← VMat.qrdecomp env.toQrEnv z k
    let z1 ← VMat.upper env.toQrEnv z k k
    let (sigma, u, vt) ← env.svd z1
    let knew ← Trunc.findrank tm eps sigma
    let vt1 ← vt.sub knew 0 k 0
    let A ← VMat.copy true vt1 rows knew
    let u1 ← u.sub k 0 knew 0
    let u1 ← VMat.diageval true sigma true u1
    let B := VMat.copySub false u1 (VMat.zero cols knew)
    let B ← VMat.qreval z tau B
    pure ⟨A, B, knew⟩
  else do
    let z ← VMat.copy atrans a rows cols
    let z := scaled (some alpha) z
    let z ← VMat.addmul 1 false b.A true b.B z
    let k := min rows cols
    let (sigma, u, vt) ← env.svd z
    let knew ← Trunc.findrank tm eps sigma
    let u1 ← u.sub rows 0 knew 0
    let u1 ← VMat.diageval true sigma true u1
    let A ← VMat.copy false u1 rows knew
    let vt1 ← vt.sub knew 0 cols 0
    let B ← VMat.copy true vt1 cols knew
    pure ⟨A, B, knew⟩

/-- harith.c:1642-1763 (`colmerge`, with `X = B` and `Y = A`) and harith.c:1765-1885 (with `X = A` and `Y = B`): the two branches of
`merge_aq_rkmatrix` differ only in the roles of the factors; the results are the new factors `X` and `Y` and the new rank. -/
noncomputable def mergeCore (n : Nat) (x1 y1 : VMat 𝕜) (kt : Nat) (x2 y2 : VMat 𝕜) (ks : Nat) : R (VMat 𝕜 × VMat 𝕜 × Nat) := do
  let rows1 := y1.rows
  let rows2 := y2.rows
  let b := VMat.fresh env.toQrEnv n (kt + ks)
  let w ← b.sub n 0 kt 0
  let w ← VMat.copy false x1 w.rows w.cols
  let b := b.glue 0 0 w
  let w ← b.sub n 0 ks kt
  let w ← VMat.copy false x2 w.rows w.cols
  let b := b.glue 0 kt w
  let k1 := min rows1 kt
  let a1 ← VMat.copy false y1 rows1 kt
  let (a1, tau1) ← VMat.qrdecomp env.toQrEnv a1 k1
  let k2 := min rows2 ks
  let a2 ← VMat.copy false y2 rows2 ks
  let (a2, tau2) ← VMat.qrdecomp env.toQrEnv a2 k2
  let kk := k1 + k2
  let c := VMat.fresh env.toQrEnv n kk
  let b1 ← b.sub n 0 kt 0
  let a1r ← a1.sub k1 0 kt 0
  let b1 ← VMat.trievalT a1r b1
  let b := b.glue 0 0 b1
  let b1 ← b.sub n 0 k1 0
  let c1 ← c.sub n 0 k1 0
  let c1 ← VMat.copy false b1 c1.rows c1.cols
  let c := c.glue 0 0 c1
  let b2 ← b.sub n 0 ks kt
  let a2r ← a2.sub k2 0 ks 0
  let b2 ← VMat.trievalT a2r b2
  let b := b.glue 0 kt b2
  let b2 ← b.sub n 0 k2 kt
  let c1 ← c.sub n 0 k2 k1
  let c1 ← VMat.copy false b2 c1.rows c1.cols
  let c := c.glue 0 k1 c1
  let (sigma, u, vt) ← env.svd c
  let knew ← Trunc.findrank tm eps sigma
  let u1 ← u.sub n 0 knew 0
  let X ← VMat.copy false u1 n knew
  let Y := VMat.zero (rows1 + rows2) knew
  let vt1 ← vt.sub knew 0 k1 0
  let v1 ← Y.sub k1 0 knew 0
  let v1 ← VMat.copy true vt1 v1.rows v1.cols
  let Y := Y.glue 0 0 v1
  let vt1 ← vt.sub knew 0 k2 k1
  let v1 ← Y.sub k2 rows1 knew 0
  let v1 ← VMat.copy true vt1 v1.rows v1.cols
  let Y := Y.glue rows1 0 v1
  let v1 ← Y.sub rows1 0 knew 0
  let v1 ← VMat.qreval a1 tau1 v1
  let Y := Y.glue 0 0 v1
  let v1 ← Y.sub rows2 rows1 knew 0
  let v1 ← VMat.qreval a2 tau2 v1
  let Y := Y.glue rows1 0 v1
  let X ← VMat.diageval true sigma true X
  pure (X, Y, knew)

/-- harith.c:1628-1893 `merge_rkmatrix(colmerge, src, tm, eps, trg)` -/
noncomputable def merge (colmerge : Bool) (src trg : VRk 𝕜) : R (VRk 𝕜) :=
  if colmerge then do
    cassert (decide (src.B.rows = trg.B.rows))
    let (B, A, k) ← mergeCore env tm eps trg.B.rows trg.B trg.A trg.k src.B src.A src.k
    pure ⟨A, B, k⟩
  else do
    cassert (decide (src.A.rows = trg.A.rows))
    let (A, B, k) ← mergeCore env tm eps src.A.rows trg.A trg.B trg.k src.A src.B src.k
    pure ⟨A, B, k⟩

/-- the operations used by the arithmetic of H-matrices -/
noncomputable def ops : TruncOps 𝕜 := ⟨addRk env tm eps, addAm env tm eps, merge env tm eps⟩

end Tr
end H2
