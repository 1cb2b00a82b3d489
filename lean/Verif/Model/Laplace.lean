import Verif.Model.Dense
import Mathlib.Analysis.SpecialFunctions.Log.Basic
import Mathlib.Analysis.Real.Sqrt

/-!
Model of the kernel functions of the boundary element method for the Laplace equation (Library/laplacebem2d.c, Library/laplacebem3d.c) and of `fill_bem3d`
(Library/bem3d.c), in exact real arithmetic, `field` being real.  Arrays of points and normal vectors are functions of the index; that they are long enough
is assumed.  A division by zero, the logarithm of zero and the reciprocal square root of zero are the outcome `Err.nan`.  The matrix is in memory.
-/

namespace H2.Lap
open H2.Dense

/-- points and vectors in the plane -/
abbrev P2 := ℝ × ℝ
/-- points and vectors in space -/
abbrev P3 := Fin 3 → ℝ

/-- laplacebem2d.c:28 `KERNEL_CONST_BEM2D` -/
noncomputable def kc : ℝ := -0.159154943091895336
/-- laplacebem2d.c:37 `KERNEL_CONST_LOG_BEM2D` -/
noncomputable def kcLog : ℝ := -0.079577471545947668

/-- `1.0 / x` -/
noncomputable def inv (x : ℝ) : R ℝ := if x = 0 then throw .nan else pure (1 / x)
/-- `a / x` -/
noncomputable def quot (a x : ℝ) : R ℝ := if x = 0 then throw .nan else pure (a / x)
/-- basic.h:240-244 `REAL_LOG(x)` -/
noncomputable def rlog (x : ℝ) : R ℝ := if x = 0 then throw .nan else pure (Real.log x)
/-- basic.h:353-355 `REAL_RSQRT(x)` -/
noncomputable def rsqrt (x : ℝ) : R ℝ := if x = 0 then throw .nan else pure (1 / Real.sqrt x)

/-! ### two dimensions -/

/-- laplacebem2d.c:535-553 `fill_kernel_laplacebem2d(X, Y, V)` -/
noncomputable def fillKernel2 (X Y : Nat → P2) (V : Mat) (m : Mem ℝ) : R (Mem ℝ) :=
  forUp 0 V.cols (fun j m => forUp 0 V.rows (fun i m => do
    let dx := (X i).1 - (Y j).1
    let dy := (X i).2 - (Y j).2
    let l ← rlog (dx * dx + dy * dy)
    m.write (V.addr i j) (kcLog * l)) m) m

/-- laplacebem2d.c:578-600 `fill_dny_kernel_laplacebem2d(X, Y, NY, V)` -/
noncomputable def fillDny2 (X Y NY : Nat → P2) (V : Mat) (m : Mem ℝ) : R (Mem ℝ) :=
  forUp 0 V.cols (fun j m => forUp 0 V.rows (fun i m => do
    let dx := (X i).1 - (Y j).1
    let dy := (X i).2 - (Y j).2
    let norm2 ← inv (dx * dx + dy * dy)
    m.write (V.addr i j) (kc * (dx * (NY j).1 + dy * (NY j).2) * norm2)) m) m

/-- laplacebem2d.c:629-658 `fill_dnx_dny_kernel_laplacebem2d(X, NX, Y, NY, V)` -/
noncomputable def fillDnxDny2 (X NX Y NY : Nat → P2) (V : Mat) (m : Mem ℝ) : R (Mem ℝ) :=
  forUp 0 V.cols (fun j m => forUp 0 V.rows (fun i m => do
    let dx := (X i).1 - (Y j).1
    let dy := (X i).2 - (Y j).2
    let norm2 ← inv (dx * dx + dy * dy)
    let dot := dx * (NY j).1 + dy * (NY j).2
    let h0 := (NY j).1 + 2 * dot * dx * norm2
    let h1 := (NY j).2 + 2 * dot * dy * norm2
    m.write (V.addr i j) (kc * ((NX i).1 * h0 + (NX i).2 * h1) * norm2)) m) m

/-- the parts of `curve2d` and of the quadrature rule `singquad1d` used below: `gr->x`, `gr->e`, `gr->n`, `gr->g`, `sq->n_single`, `sq->x_single`, `sq->w_single` -/
structure Curve where
  x : Nat → P2
  e : Nat → Nat × Nat
  n : Nat → P2
  g : Nat → ℝ
  nq : Nat
  xx : Nat → ℝ
  ww : Nat → ℝ

/-- `(idx == NULL ? s : idx[s])` -/
def at' (idx : Option (Nat → Nat)) (s : Nat) : Nat := match idx with
  | none => s
  | some f => f s

/-- laplacebem2d.c:685-734 `fill_kernel_c_laplacebem2d(idx, Z, bem, V)` -/
noncomputable def fillKernelC2 (idx : Option (Nat → Nat)) (Z : Nat → P2) (gr : Curve) (V : Mat) (m : Mem ℝ) : R (Mem ℝ) :=
  forUp 0 V.cols (fun i m => forUp 0 V.rows (fun s m => do
    let ss := at' idx s
    let fac := gr.g ss * kcLog
    let A := gr.x (gr.e ss).1
    let B := gr.x (gr.e ss).2
    let sum ← forUp 0 gr.nq (fun q (sum : ℝ) => do
      let tx := gr.xx q
      let Ax := 1 - tx
      let Bx := tx
      let dx := (Z i).1 - (A.1 * Ax + B.1 * Bx)
      let dy := (Z i).2 - (A.2 * Ax + B.2 * Bx)
      let kernel ← rlog (dx * dx + dy * dy)
      pure (sum + gr.ww q * kernel)) 0
    m.write (V.addr s i) (sum * fac)) m) m

/-- laplacebem2d.c:766-812 `fill_dnz_kernel_c_laplacebem2d(idx, Z, N, bem, V)` -/
noncomputable def fillDnzC2 (idx : Option (Nat → Nat)) (Z N : Nat → P2) (gr : Curve) (V : Mat) (m : Mem ℝ) : R (Mem ℝ) :=
  forUp 0 V.cols (fun i m => forUp 0 V.rows (fun t m => do
    let tt := at' idx t
    let fac := gr.g tt * kc
    let A := gr.x (gr.e tt).1
    let B := gr.x (gr.e tt).2
    let sum ← forUp 0 gr.nq (fun q (sum : ℝ) => do
      let tx := gr.xx q
      let Ax := 1 - tx
      let Bx := tx
      let dx := (Z i).1 - (A.1 * Ax + B.1 * Bx)
      let dy := (Z i).2 - (A.2 * Ax + B.2 * Bx)
      let kernel := dx * dx + dy * dy
      let v ← quot (gr.ww q * (dx * (N i).1 + dy * (N i).2)) kernel
      pure (sum + v)) 0
    m.write (V.addr t i) (sum * fac)) m) m

/-- laplacebem2d.c:841-895 `fill_dcol_kernel_col_c_laplacebem2d(idx, Z, bem, V)` -/
noncomputable def fillDcolC2 (idx : Option (Nat → Nat)) (Z : Nat → P2) (gr : Curve) (V : Mat) (m : Mem ℝ) : R (Mem ℝ) :=
  forUp 0 V.cols (fun i m => forUp 0 V.rows (fun s m => do
    let ss := at' idx s
    let fac := gr.g ss * kc
    let ns := gr.n ss
    let A := gr.x (gr.e ss).1
    let B := gr.x (gr.e ss).2
    let sum ← forUp 0 gr.nq (fun q (sum : ℝ) => do
      let tx := gr.xx q
      let Ax := 1 - tx
      let Bx := tx
      let dx := (Z i).1 - (A.1 * Ax + B.1 * Bx)
      let dy := (Z i).2 - (A.2 * Ax + B.2 * Bx)
      let kernel := dx * dx + dy * dy
      let v ← quot (gr.ww q * (dx * ns.1 + dy * ns.2)) kernel
      pure (sum + v)) 0
    m.write (V.addr s i) (sum * fac)) m) m

/-- laplacebem2d.c:928-983 `fill_dnzdcol_kernel_c_laplacebem2d(idx, Z, N, bem, V)` -/
noncomputable def fillDnzDcolC2 (idx : Option (Nat → Nat)) (Z N : Nat → P2) (gr : Curve) (V : Mat) (m : Mem ℝ) : R (Mem ℝ) :=
  forUp 0 V.cols (fun i m => forUp 0 V.rows (fun s m => do
    let ss := at' idx s
    let fac := gr.g ss * kc
    let A := gr.x (gr.e ss).1
    let B := gr.x (gr.e ss).2
    let ns := gr.n ss
    let sum ← forUp 0 gr.nq (fun q (sum : ℝ) => do
      let tx := gr.xx q
      let Ax := 1 - tx
      let Bx := tx
      let dx := (Z i).1 - (A.1 * Ax + B.1 * Bx)
      let dy := (Z i).2 - (A.2 * Ax + B.2 * Bx)
      let norm2 ← inv (dx * dx + dy * dy)
      let dotp1 := (N i).1 * dx + (N i).2 * dy
      let dotp2 := ns.1 * dx + ns.2 * dy
      let dotp3 := ns.1 * (N i).1 + ns.2 * (N i).2
      let kernel := -2 * dotp1 * dotp2 * norm2 * norm2 + dotp3 * norm2
      pure (sum + gr.ww q * kernel)) 0
    m.write (V.addr s i) (sum * fac)) m) m

/-! ### three dimensions -/

/-- reading from a pointer that may be `NULL` -/
def deref (p : Option P3) : R P3 := match p with
  | none => throw .ub
  | some x => pure x

/-- basic.h:286 `REAL_DOT3(x, y)` -/
noncomputable def dot3 (x y : P3) : ℝ := x 0 * y 0 + x 1 * y 1 + x 2 * y 2
/-- basic.h:294 `REAL_NORMSQR3(x, y, z)` -/
noncomputable def normsqr3 (x : P3) : ℝ := x 0 * x 0 + x 1 * x 1 + x 2 * x 2

/-- laplacebem3d.c:35-56 `slp_kernel_laplacebem3d(x, y, nx, ny, data)` -/
noncomputable def slp (x y : P3) (_ _ : Option P3) : R ℝ := do
  let dist : P3 := x - y
  rsqrt (normsqr3 dist)

/-- laplacebem3d.c:83-106 `dlp_kernel_laplacebem3d(x, y, nx, ny, data)` -/
noncomputable def dlp (x y : P3) (_ ny : Option P3) : R ℝ := do
  let dist : P3 := x - y
  let norm ← rsqrt (normsqr3 dist)
  let norm := norm * (norm * norm)
  let n ← deref ny
  pure (dot3 dist n * norm)

/-- laplacebem3d.c:135-158 `adlp_kernel_laplacebem3d(x, y, nx, ny, data)` -/
noncomputable def adlp (x y : P3) (nx _ : Option P3) : R ℝ := do
  let dist : P3 := y - x
  let norm ← rsqrt (normsqr3 dist)
  let norm := norm * (norm * norm)
  let n ← deref nx
  pure (dot3 dist n * norm)

/-- laplacebem3d.c:186-210 `hs_kernel_laplacebem3d(x, y, nx, ny, data)` -/
noncomputable def hs (x y : P3) (nx ny : Option P3) : R ℝ := do
  let dist : P3 := x - y
  let norm2 := normsqr3 dist
  let norm ← rsqrt norm2
  let norm := norm * norm * (norm * norm) * norm
  let n ← deref nx
  let n' ← deref ny
  let dot := dot3 dist n * dot3 dist n'
  let dotxy := dot3 n n'
  pure (norm * (-3 * dot + norm2 * dotxy))

/-- bem3d.c:3438-3486 `fill_bem3d(bem, X, Y, NX, NY, V, kernel)`; `c` is `bem->kernel_const`. The four loops of the code differ only in the arguments that are `NULL`. -/
noncomputable def fillBem3 (c : ℝ) (X Y : Nat → P3) (NX NY : Option (Nat → P3)) (V : Mat) (kernel : P3 → P3 → Option P3 → Option P3 → R ℝ) (m : Mem ℝ) : R (Mem ℝ) :=
  forUp 0 V.cols (fun j m => forUp 0 V.rows (fun i m => do
    let k ← kernel (X i) (Y j) (NX.map fun f => f i) (NY.map fun f => f j)
    m.write (V.addr i j) (c * k)) m) m

/-- laplacebem3d.c:674-679 `fill_kernel_laplacebem3d(bem, X, Y, V)` -/
noncomputable def fillKernel3 (c : ℝ) (X Y : Nat → P3) (V : Mat) (m : Mem ℝ) : R (Mem ℝ) := fillBem3 c X Y none none V slp m
/-- laplacebem3d.c:681-687 `fill_dny_kernel_laplacebem3d(bem, X, Y, NY, V)` -/
noncomputable def fillDny3 (c : ℝ) (X Y NY : Nat → P3) (V : Mat) (m : Mem ℝ) : R (Mem ℝ) := fillBem3 c X Y none (some NY) V dlp m
/-- laplacebem3d.c:689-695 `fill_dnx_dny_kernel_laplacebem3d(bem, X, NX, Y, NY, V)` -/
noncomputable def fillDnxDny3 (c : ℝ) (X NX Y NY : Nat → P3) (V : Mat) (m : Mem ℝ) : R (Mem ℝ) := fillBem3 c X Y (some NX) (some NY) V hs m

end H2.Lap
