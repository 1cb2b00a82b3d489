import Verif.Model.Dense
import Verif.Core.Arr
import Mathlib.Algebra.Order.Field.Basic
import Mathlib.Analysis.SpecialFunctions.Trigonometric.Basic

/-!
# Interpolation for boundary element matrices in 2D (`Library/bem2d.c`)

Exact arithmetic over an ordered field; a division by zero ends with `nan`.  Arrays obtained by `allocreal` and released in the same
function are new arrays with arbitrary contents.
-/

namespace H2.Interp
variable {K : Type} [Field K] [LinearOrder K]

/-- bem2d.c:1021-1024, 1025-1028: an interval shorter than `INTERPOLATION_EPS_BEM2D` (bem2d.c:27) is extended on both sides -/
def widen (eps a b : K) : K × K := if b - a < eps then (a - eps, b + eps) else (a, b)

/-- bem2d.c:1034-1037 and 1042-1043: the point `x` of the reference interval moved to the interval `[a, b]` -/
def point (a b x : K) : K := (b + a) * (1 / 2) + (b - a) * (1 / 2) * x

/-- bem2d.c:1051-1089 `assemble_interpoints2d_avector(bem, t, px, py)` for the bounding box `[ax, bx] × [ay, by']` of `t`; `x` is
`aprx->x_inter`, `m` is `aprx->m_inter`. -/
def pointsVec (eps ax bx ay by' : K) (m : Nat) (x px py : Arr K) : R (Arr K × Arr K) :=
  forUp 0 m (fun i (p : Arr K × Arr K) => do
    let xi ← x.get i
    let px ← p.1.set i (point (widen eps ax bx).1 (widen eps ax bx).2 xi)
    let py ← p.2.set i (point (widen eps ay by').1 (widen eps ay by').2 xi)
    pure (px, py)) (px, py)

/-- bem2d.c:1006-1049 `assemble_interpoints2d_array(bem, t, X)`; `k` is `aprx->k_inter`. -/
def pointsArray (eps ax bx ay by' : K) (m k : Nat) (x : Arr K) (X : Arr (K × K)) : R (Arr (K × K)) := do
  let (X, index) ← forUp 0 m (fun i st => forUp 0 m (fun j (st : Arr (K × K) × Nat) => do
    let xi ← x.get i
    let xj ← x.get j
    let X ← st.1.set st.2 (point (widen eps ax bx).1 (widen eps ax bx).2 xi, point (widen eps ay by').1 (widen eps ay by').2 xj)
    pure (X, st.2 + 1)) st) (X, 0)
  cassert (decide (index = k))
  pure X

variable [DecidableEq K]

/-- bem2d.c:2693-2698 and similar: `lagr *= (x - p[l])` for all `l < n` except `l = j` -/
def skipProd (p : Arr K) (n j : Nat) (x lagr : K) : R K := do
  let lagr ← forUp 0 j (fun l (d : K) => do
    let v ← p.get l
    pure (d * (x - v))) lagr
  forUp (j + 1) n (fun l (d : K) => do
    let v ← p.get l
    pure (d * (x - v))) lagr

/-- bem2d.c:2691-2700, 2702-2711: the reciprocals of the denominators of the Lagrange polynomials -/
def denoms (p : Arr K) (d : Arr K) : R (Arr K) :=
  forUp 0 p.n (fun j (d : Arr K) => do
    let pj ← p.get j
    let denom ← skipProd p p.n j pj 1
    if denom = 0 then throw .nan else d.set j (1 / denom)) d

/-- bem2d.c:2718-2732: the numerator of the product of two Lagrange polynomials -/
def numer (px py : Arr K) (jx jy : Nat) (x y : K) : R K := do
  let lagr ← skipProd px px.n jx x 1
  skipProd py py.n jy y lagr

/-- bem2d.c:2666-2741 `assemble_bem2d_lagrange_amatrix(X, px, py, V)` -/
def lagrange (junk : Nat → K) (X : Arr (K × K)) (px py : Arr K) (V : Mat) (m : Mem K) : R (Mem K) := do
  cassert (decide (px.n * py.n = V.cols))
  let denomx ← denoms px ⟨px.n, junk⟩
  let denomy ← denoms py ⟨py.n, junk⟩
  let (m, _) ← forUp 0 px.n (fun jx st => forUp 0 py.n (fun jy (st : Mem K × Nat) => do
    let dx ← denomx.get jx
    let dy ← denomy.get jy
    let m ← forUp 0 V.rows (fun i (m : Mem K) => do
      let q ← X.get i
      let lagr ← numer px py jx jy q.1 q.2
      m.write (V.addr i st.2) (lagr * (dx * dy))) st.1
    pure (m, st.2 + 1)) st) (m, 0)
  pure m

/-- the parts of `struct _curve2d` and of the quadrature rule `bem->sq` used here: vertex coordinates `x`, `e` with two vertices per
edge, normal vectors `n`, lengths `g`; points `xx` and weights `ww` on `[0, 1]` -/
structure Geo (K : Type) where
  x : Arr (K × K)
  e : Arr (Nat × Nat)
  n : Arr (K × K)
  g : Arr K
  nq : Nat
  xx : Arr K
  ww : Arr K

/-- `tt = (idx == NULL ? t : idx[t])` -/
def index (idx : Option (Arr Nat)) (t : Nat) : R Nat := match idx with | none => .ok t | some a => a.get t

/-- bem2d.c:2805-2806 `A`, `B`: the end points of an edge -/
def ends (gr : Geo K) (tt : Nat) : R ((K × K) × K × K) := do
  let e ← gr.e.get tt
  let a ← gr.x.get e.1
  let b ← gr.x.get e.2
  pure (a, b)

/-- bem2d.c:2743-2840 `assemble_bem2d_lagrange_const_amatrix(idx, px, py, bem, V)` -/
def lagrangeConst (junk : Nat → K) (gr : Geo K) (idx : Option (Arr Nat)) (px py : Arr K) (V : Mat) (m : Mem K) : R (Mem K) := do
  let denomx ← denoms px ⟨px.n, junk⟩
  let denomy ← denoms py ⟨py.n, junk⟩
  let (m, _) ← forUp 0 px.n (fun jx st => forUp 0 py.n (fun jy (st : Mem K × Nat) => do
    let dx ← denomx.get jx
    let dy ← denomy.get jy
    let m ← forUp 0 V.rows (fun t (m : Mem K) => do
      let tt ← index idx t
      let gt ← gr.g.get tt
      let (a, b) ← ends gr tt
      let sum ← forUp 0 gr.nq (fun q (sum : K) => do
        let tx ← gr.xx.get q
        let x := a.1 * (1 - tx) + b.1 * tx
        let y := a.2 * (1 - tx) + b.2 * tx
        let lagr ← numer px py jx jy x y
        let w ← gr.ww.get q
        pure (sum + w * lagr)) 0
      m.write (V.addr t st.2) (gt * sum * (dx * dy))) st.1
    pure (m, st.2 + 1)) st) (m, 0)
  pure m

/-- bem2d.c:2901-2908: the value of the `j`-th Lagrange polynomial at `x` -/
def basisAt (p : Arr K) (j : Nat) (x : K) : R K := do
  let pj ← p.get j
  let body := fun l (d : K) => do
    let v ← p.get l
    if pj - v = 0 then throw .nan else pure (d * ((x - v) / (pj - v)))
  let d ← forUp 0 j body 1
  forUp (j + 1) p.n body d

/-- bem2d.c:2920-2925: `sum of lagr / (x - p[l])` -/
def logDeriv (p : Arr K) (j : Nat) (x lagr : K) : R K := do
  let body := fun l (d : K) => do
    let v ← p.get l
    if x - v = 0 then throw .nan else pure (d + lagr / (x - v))
  let d ← forUp 0 j body 0
  forUp (j + 1) p.n body d

/-- bem2d.c:2842-2942 `assemble_bem2d_dn_lagrange_const_amatrix(idx, px, py, bem, V)` -/
def dnLagrangeConst (gr : Geo K) (idx : Option (Arr Nat)) (px py : Arr K) (V : Mat) (m : Mem K) : R (Mem K) := do
  cassert (decide (V.cols = px.n * py.n))
  forUp 0 V.rows (fun t (m : Mem K) => do
    let tt ← index idx t
    let gt ← gr.g.get tt
    let nt ← gr.n.get tt
    let (a, b) ← ends gr tt
    let (m, _) ← forUp 0 px.n (fun jx st => forUp 0 py.n (fun jy (st : Mem K × Nat) => do
      let sum ← forUp 0 gr.nq (fun q (sum : K) => do
        let tx ← gr.xx.get q
        let x := a.1 * (1 - tx) + b.1 * tx
        let y := a.2 * (1 - tx) + b.2 * tx
        let lagrx ← basisAt px jx x
        let lagry ← basisAt py jy y
        let l0 ← logDeriv px jx x lagrx
        let l1 ← logDeriv py jy y lagry
        let w ← gr.ww.get q
        pure (sum + w * (nt.1 * (l0 * lagry) + nt.2 * (l1 * lagrx)))) 0
      let m ← st.1.write (V.addr t st.2) (-1 * gt * sum)
      pure (m, st.2 + 1)) st) (m, 0)
    pure m) m

/-- bem2d.c:1095-1127 `assemble_bem2d_inter_row_rkmatrix(rc, rname, cc, cname, bem, R)` for `lagrange_row =
assemble_bem2d_lagrange_const_amatrix`; `box` is the bounding box of `rc`, `kernelCol Z` the call of `kernel_col` for the column
cluster.  `resize_rkmatrix` is left out: `A` and `B` are the factors of `R` after it. -/
def interRow (eps ax bx ay by' : K) (junk : Nat → K) (m : Nat) (x : Arr K) (gr : Geo K) (ridx : Option (Arr Nat))
    (kernelCol : Arr (K × K) → Mat → Mem K → R (Mem K)) (A B : Mat) (s : Mem K) : R (Mem K) := do
  let z ← pointsArray eps ax bx ay by' m (m * m) x ⟨m * m, fun i => (junk i, junk i)⟩
  let p ← pointsVec eps ax bx ay by' m x ⟨m, junk⟩ ⟨m, junk⟩
  let s ← lagrangeConst junk gr ridx p.1 p.2 A s
  kernelCol z B s

/-- bem2d.c:1755-1791 `assemble_bem2d_inter_tranfer_clusterbasis(bem, cb, rname)`: the transfer matrix `E` of one son; `ax, …` is the
bounding box of the cluster, `ax', …` the one of the son. -/
def transfer (eps ax bx ay by' ax' bx' ay' by'' : K) (junk : Nat → K) (m : Nat) (x : Arr K) (E : Mat) (s : Mem K) : R (Mem K) := do
  let p ← pointsVec eps ax bx ay by' m x ⟨m, junk⟩ ⟨m, junk⟩
  let X ← pointsArray eps ax' bx' ay' by'' m (m * m) x ⟨m * m, fun i => (junk i, junk i)⟩
  lagrange junk X p.1 p.2 E s

end H2.Interp

namespace H2.Interp

/-- bem2d.c:785-804 `setup_interpolation_bem2d(aprx, m)`: the Chebyshev points -/
noncomputable def chebyshev (m : Nat) (i : Nat) : ℝ := Real.cos (Real.pi * (2 * i * (1 / (2 * m)) + 1 / (2 * m)))

end H2.Interp
