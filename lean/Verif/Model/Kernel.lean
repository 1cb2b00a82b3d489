import Verif.Model.Project
import Verif.Model.Krylov
import Verif.Core.Arr
import Mathlib.Analysis.SpecialFunctions.Trigonometric.Basic

/-!
# Kernel matrices and their approximation by interpolation (`Library/kernelmatrix.c`)

Real arithmetic is exact.  `x / y` with `y = 0` is the error `nan`.  Matrices and cluster bases are values as in `Model/Project`; `idx` is the index array of the
cluster tree (`t->idx[i]` is `idx[t->off + i]`).
-/

namespace H2

/-- kernelmatrix.h:37-61 `struct _kernelmatrix`; the callback reads the first `dim` coordinates of its arguments. -/
structure KM (𝕜 : Type) where
  dim : Nat
  kernel : (Fin dim → ℝ) → (Fin dim → ℝ) → 𝕜
  points : Nat
  x : Nat → Nat → ℝ
  m : Nat
  xiRef : Nat → ℝ

/-- amatrix.c:226-241 `resize_amatrix(a, rows, cols)`: new storage unless the dimensions are unchanged -/
def VMat.resize {𝕜 : Type} (junk : Nat → 𝕜) (a : VMat 𝕜) (rows cols : Nat) : VMat 𝕜 :=
  if rows ≠ a.rows ∨ cols ≠ a.cols then ⟨rows, cols, fun i j => junk (i + j)⟩ else a
/-- the write access `a->a[i + j * a->ld] = v` -/
def VMat.put {𝕜 : Type} (a : VMat 𝕜) (i j : Nat) (v : 𝕜) : R (VMat 𝕜) :=
  if i < a.rows ∧ j < a.cols then .ok ⟨a.rows, a.cols, fun i' j' => if i' = i ∧ j' = j then v else a.e i' j'⟩ else .error .ub

namespace KM
variable {𝕜 : Type} [RCLike 𝕜]

/-- kernelmatrix.c:40-43: the Chebyshev points -/
noncomputable def cheb (m i : Nat) : ℝ := Real.cos (Real.pi * ((m : ℝ) - i - 1 / 2) / m)

/-- kernelmatrix.c:16-47 `new_kernelmatrix(dim, points, m)` and the assignment of the callback; `junk` is the content of new memory.  Without points the
pointer `km->x[0]` is outside the allocated array. -/
noncomputable def new (dim points m : Nat) (kernel : (Fin dim → ℝ) → (Fin dim → ℝ) → 𝕜) (junk : Nat → ℝ) : R (KM 𝕜) :=
  if 0 < points then .ok ⟨dim, kernel, points, fun i j => junk (i + j), m, cheb m⟩ else .error .ub

/-- `x[i]` -/
def point (km : KM 𝕜) (i : Nat) : R (Fin km.dim → ℝ) := if i < km.points then .ok fun d => km.x i d else .error .ub

/-- kernelmatrix.c:88-142: `ridx[i]`, or `i` for the null pointer; `p = (idx, off)` is the pointer `idx + off` -/
def index (p : Option (Arr Nat × Nat)) (i : Nat) : R Nat := match p with | none => .ok i | some (idx, off) => idx.get (off + i)

/-- kernelmatrix.c:88-142 `fillN_kernelmatrix(ridx, cidx, km, N)` -/
def fillN (km : KM 𝕜) (ridx cidx : Option (Arr Nat × Nat)) (N : VMat 𝕜) : R (VMat 𝕜) := do
  cassert (ridx.isSome || decide (N.rows ≤ km.points))
  cassert (cidx.isSome || decide (N.cols ≤ km.points))
  forUp 0 N.cols (fun j N => do
    let jj ← index cidx j
    forUp 0 N.rows (fun i (N : VMat 𝕜) => do
      let ii ← index ridx i
      let x ← km.point ii
      let y ← km.point jj
      N.put i j (km.kernel x y)) N) N

/-- kernelmatrix.c:148-174 `transform_points(dim, bmin, bmax, m, xi_ref)`; for `dim = 0`, `xi[0]` is outside the allocated array. -/
noncomputable def transform (km : KM 𝕜) (t : Cluster ℝ) : R (Nat → Nat → ℝ) :=
  if 0 < km.dim then .ok fun d j => 1 / 2 * (t.info.bmax d + t.info.bmin d) + 1 / 2 * (t.info.bmax d - t.info.bmin d) * km.xiRef j else .error .ub

/-- kernelmatrix.c:180-224 `fillS_1d(dim, i0, j0, rxi, cxi, km, xx, yy, S)`; the state consists of `xx`, `yy` and `S`.  `m - 1` is `UINT_MAX` for `m = 0`, so the
assertions fail in this case. -/
def fillS1 (km : KM 𝕜) (rxi cxi : Nat → Nat → ℝ) : Nat → Nat → Nat → Arr ℝ × Arr ℝ × VMat 𝕜 → R (Arr ℝ × Arr ℝ × VMat 𝕜)
  | 0, _, _, _ => .error .ub
  | 1, i0, j0, (xx, yy, S) => do
    cassert (decide (0 < km.m ∧ (km.m - 1) + i0 * km.m < S.rows))
    cassert (decide (0 < km.m ∧ (km.m - 1) + j0 * km.m < S.cols))
    forUp 0 km.m (fun i (st : Arr ℝ × Arr ℝ × VMat 𝕜) => do
      let xx ← st.1.set 0 (rxi 0 i)
      forUp 0 km.m (fun j (st : Arr ℝ × Arr ℝ × VMat 𝕜) => do
        let yy ← st.2.1.set 0 (cxi 0 j)
        let S ← st.2.2.put (i + i0 * km.m) (j + j0 * km.m) (km.kernel (fun d => st.1.v d) (fun d => yy.v d))
        pure (st.1, yy, S)) (xx, st.2)) (xx, yy, S)
  | d + 2, i0, j0, st =>
    forUp 0 km.m (fun i (st : Arr ℝ × Arr ℝ × VMat 𝕜) => do
      let xx ← st.1.set (d + 1) (rxi (d + 1) i)
      forUp 0 km.m (fun j (st : Arr ℝ × Arr ℝ × VMat 𝕜) => do
        let yy ← st.2.1.set (d + 1) (cxi (d + 1) j)
        fillS1 km rxi cxi (d + 1) (i + i0 * km.m) (j + j0 * km.m) (st.1, yy, st.2.2)) (xx, st.2)) st

/-- kernelmatrix.c:240-258 and 268-284: the loops over `i1`, `i2`, `j1`, `j2` for the coordinates `d` and `d + 1`; `body` is the innermost statement -/
def loop4 (km : KM 𝕜) (rxi cxi : Nat → Nat → ℝ) (d : Nat) (body : Nat → Nat → Nat → Nat → Arr ℝ × Arr ℝ × VMat 𝕜 → R (Arr ℝ × Arr ℝ × VMat 𝕜))
    (st : Arr ℝ × Arr ℝ × VMat 𝕜) : R (Arr ℝ × Arr ℝ × VMat 𝕜) :=
  forUp 0 km.m (fun i1 (st : Arr ℝ × Arr ℝ × VMat 𝕜) => do
    let xx ← st.1.set d (rxi d i1)
    forUp 0 km.m (fun i2 (st : Arr ℝ × Arr ℝ × VMat 𝕜) => do
      let xx ← st.1.set (d + 1) (rxi (d + 1) i2)
      forUp 0 km.m (fun j1 (st : Arr ℝ × Arr ℝ × VMat 𝕜) => do
        let yy ← st.2.1.set d (cxi d j1)
        forUp 0 km.m (fun j2 (st : Arr ℝ × Arr ℝ × VMat 𝕜) => do
          let yy ← st.2.1.set (d + 1) (cxi (d + 1) j2)
          body i1 i2 j1 j2 (st.1, yy, st.2.2)) (st.1, yy, st.2.2)) (xx, st.2)) (xx, st.2)) st

/-- kernelmatrix.c:226-291 `fillS_2d(dim, i0, j0, rxi, cxi, km, xx, yy, S)` -/
def fillS2 (km : KM 𝕜) (rxi cxi : Nat → Nat → ℝ) : Nat → Nat → Nat → Arr ℝ × Arr ℝ × VMat 𝕜 → R (Arr ℝ × Arr ℝ × VMat 𝕜)
  | 0, _, _, _ => .error .assertFail
  | 1, i0, j0, st => fillS1 km rxi cxi 1 i0 j0 st
  | 2, i0, j0, st => do
    cassert (decide (0 < km.m ∧ (km.m * km.m - 1) + i0 * km.m * km.m < st.2.2.rows))
    cassert (decide (0 < km.m ∧ (km.m * km.m - 1) + j0 * km.m * km.m < st.2.2.cols))
    loop4 km rxi cxi 0 (fun i1 i2 j1 j2 st => do
      let S ← st.2.2.put (i1 + km.m * (i2 + km.m * i0)) (j1 + km.m * (j2 + km.m * j0)) (km.kernel (fun d => st.1.v d) (fun d => st.2.1.v d))
      pure (st.1, st.2.1, S)) st
  | d + 3, i0, j0, st =>
    loop4 km rxi cxi (d + 1) (fun i1 i2 j1 j2 st => fillS2 km rxi cxi (d + 1) (i1 + km.m * (i2 + km.m * i0)) (j1 + km.m * (j2 + km.m * j0)) st) st

/-- kernelmatrix.c:293-331 `fillS_kernelmatrix(rc, cc, km, S)`; `junk` is the content of the new arrays `xx` and `yy` -/
noncomputable def fillS (km : KM 𝕜) (junk : Nat → ℝ) (rc cc : Cluster ℝ) (S : VMat 𝕜) : R (VMat 𝕜) := do
  cassert (decide (rc.info.dim = km.dim))
  cassert (decide (cc.info.dim = km.dim))
  let rxi ← km.transform rc
  let cxi ← km.transform cc
  let st ← (if 2 ≤ km.dim then fillS2 km rxi cxi km.dim 0 0 (⟨km.dim, junk⟩, ⟨km.dim, junk⟩, S) else fillS1 km rxi cxi km.dim 0 0 (⟨km.dim, junk⟩, ⟨km.dim, junk⟩, S))
  pure st.2.2

/-- kernelmatrix.c:337-356 `eval_lagrange(m, xi, i, t)` -/
noncomputable def lagrange (m : Nat) (xi : Nat → ℝ) (i : Nat) (t : ℝ) : R ℝ :=
  let s := forT 0 i (fun j (s : ℝ × ℝ) => (s.1 * (t - xi j), s.2 * (xi i - xi j))) (1, 1)
  let s := forT (i + 1) m (fun j (s : ℝ × ℝ) => (s.1 * (t - xi j), s.2 * (xi i - xi j))) s
  Krylov.cdiv s.1 s.2

/-- kernelmatrix.c:362-392 `fillV_1d(dim, i, j0, txi, km, xx, alpha0, V)` -/
noncomputable def fillV1 (km : KM 𝕜) (txi : Nat → Nat → ℝ) (i : Nat) (xx : Nat → ℝ) : Nat → Nat → 𝕜 → VMat 𝕜 → R (VMat 𝕜)
  | 0, j0, alpha0, V => do
    cassert (decide (i < V.rows))
    cassert (decide (j0 < V.cols))
    V.put i j0 alpha0
  | d + 1, j0, alpha0, V =>
    forUp 0 km.m (fun j V => do
      let l ← lagrange km.m (txi d) j (xx d)
      fillV1 km txi i xx d (j + j0 * km.m) (alpha0 * (l : 𝕜)) V) V

/-- kernelmatrix.c:394-418 `fillV_kernelmatrix(tc, km, V)` -/
noncomputable def fillV (km : KM 𝕜) (idx : Arr Nat) (tc : Cluster ℝ) (V : VMat 𝕜) : R (VMat 𝕜) := do
  cassert (decide (tc.info.dim = km.dim))
  let txi ← km.transform tc
  forUp 0 tc.size (fun i V => do
    let ii ← idx.get (tc.off + i)
    let _ ← km.point ii
    fillV1 km txi i (km.x ii) km.dim 0 1 V) V

/-- kernelmatrix.c:424-455 `fillE_1d(dim, i0, j0, sxi, fxi, km, alpha0, E)` -/
noncomputable def fillE1 (km : KM 𝕜) (sxi fxi : Nat → Nat → ℝ) : Nat → Nat → Nat → 𝕜 → VMat 𝕜 → R (VMat 𝕜)
  | 0, i0, j0, alpha0, E => do
    cassert (decide (i0 < E.rows))
    cassert (decide (j0 < E.cols))
    E.put i0 j0 alpha0
  | d + 1, i0, j0, alpha0, E =>
    forUp 0 km.m (fun i E => forUp 0 km.m (fun j E => do
      let l ← lagrange km.m (fxi d) j (sxi d i)
      fillE1 km sxi fxi d (i + i0 * km.m) (j + j0 * km.m) (alpha0 * (l : 𝕜)) E) E) E

/-- kernelmatrix.c:457-483 `fillE_kernelmatrix(sc, fc, km, E)` -/
noncomputable def fillE (km : KM 𝕜) (sc fc : Cluster ℝ) (E : VMat 𝕜) : R (VMat 𝕜) := do
  cassert (decide (sc.info.dim = km.dim))
  cassert (decide (fc.info.dim = km.dim))
  let sxi ← km.transform sc
  let fxi ← km.transform fc
  fillE1 km sxi fxi km.dim 0 0 1 E

/-- kernelmatrix.c:489-507 `fill_clusterbasis(km, k, cb)`, with clusterbasis.c:227-244 `setrank_clusterbasis` -/
noncomputable def fillBasisRec (km : KM 𝕜) (idx : Arr Nat) (junk : Nat → 𝕜) (k : Nat) : CBV ℝ 𝕜 → R (CBV ℝ 𝕜)
  | .mk t _ _ _ V E n son => do
    let s ← seqFin n (fun i => fillBasisRec km idx junk k (son i))
    let E := E.resize junk k E.cols
    if 0 < n then do
      let s ← seqFin n (fun i => do
        let E1 ← km.fillE (s i).t.cl t.cl ((s i).E.resize junk (s i).k k)
        pure ((s i).setE E1))
      let c := CBV.counts t k s
      pure (.mk t k c.1 c.2 V E n s)
    else do
      let V ← km.fillV idx t.cl (V.resize junk t.cl.size k)
      let c := CBV.counts t k s
      pure (.mk t k c.1 c.2 V E n s)

/-- kernelmatrix.c:509-522 `fill_clusterbasis_kernelmatrix(km, cb)`; `k` does not overflow in the model -/
noncomputable def fillBasis (km : KM 𝕜) (idx : Arr Nat) (junk : Nat → 𝕜) (cb : CBV ℝ 𝕜) : R (CBV ℝ 𝕜) :=
  fillBasisRec km idx junk (forT 0 km.dim (fun _ k => k * km.m) 1) cb

/-- kernelmatrix.c:528-548 `fill_h2matrix_kernelmatrix(km, G)` -/
noncomputable def fillH2 (km : KM 𝕜) (ridx cidx : Arr Nat) (junk : Nat → ℝ) : H2V ℝ 𝕜 → R (H2V ℝ 𝕜)
  | .super rb cb rsons csons son => do
    let s ← seqFin csons (fun j => seqFin rsons (fun i => fillH2 km ridx cidx junk (son i j)))
    pure (.super rb cb rsons csons fun i j => s j i)
  | .uni rb cb S => do
    let S ← km.fillS junk rb.cb.t.cl cb.cb.t.cl S
    pure (.uni rb cb S)
  | .full rb cb f => do
    let f ← km.fillN (some (ridx, rb.cb.t.cl.off)) (some (cidx, cb.cb.t.cl.off)) f
    pure (.full rb cb f)
  | .zero _ _ => .error .assertFail

end KM
end H2
