import Verif.Model.Rk
import Verif.Model.Krylov
import Verif.Core.Down
import Mathlib.Analysis.RCLike.Basic
import Mathlib.Analysis.SpecialFunctions.Pow.Real

/-!
# Adaptive cross approximation (`aca.c`)

`field` is `ℝ` or `ℂ` (`RCLike`).  The index arrays are separately allocated (`Arr`); all matrices live in one memory.
-/

namespace H2.Aca
open Dense Krylov
variable {𝕜 : Type} [RCLike 𝕜]

/-- `allocmem`: given the memory and a number of cells, the address of a block.  (Spec `GoodAlloc`: the block is not in use.) -/
abbrev Alloc (𝕜 : Type) := Mem 𝕜 → Nat → Nat

/-- aca.c:33-42, 197-203: the array `n, f(0), …, f(n-1)`. -/
def idxArr (n : Nat) (f : Nat → Nat) : Arr Nat := ⟨n, f⟩

/-- aca.c:70-76, 292-300: exchange entries `k` and `i` of an index array. -/
def swapArr (p : Arr Nat) (k i : Nat) : R (Arr Nat) := do
  let t ← p.get k
  let u ← p.get i
  let p ← p.set k u
  p.set i t

open Classical in
/-- aca.c:51-61, 102-111: `find maximal element` of the rows and columns from `k` on; the state is `(absAij, imax, jmax)`. -/
noncomputable def findMax (a : Mat) (k : Nat) (imax jmax : Nat) (m : Mem 𝕜) : R (ℝ × Nat × Nat) :=
  forUp k a.cols (fun j s => forUp k a.rows (fun i s => do
    let v ← m.read (a.addr i j)
    pure (if RCLike.normSq v > s.1 then (RCLike.normSq v, i, j) else s)) s) (0, imax, jmax)

/-- aca.c:81-85: exchange columns `k` and `q`. -/
def swapCols (a : Mat) (k q : Nat) (m : Mem 𝕜) : R (Mem 𝕜) :=
  forUp 0 a.rows (fun i m => do
    let y ← m.read (a.addr i q)
    let z ← m.read (a.addr i k)
    let m ← m.write (a.addr i q) z
    m.write (a.addr i k) y) m

/-- aca.c:86-90: exchange the first `n` entries of rows `k` and `p`. -/
def swapRows (a : Mat) (n k p : Nat) (m : Mem 𝕜) : R (Mem 𝕜) :=
  forUp 0 n (fun j m => do
    let y ← m.read (a.addr p j)
    let z ← m.read (a.addr k j)
    let m ← m.write (a.addr p j) z
    m.write (a.addr k j) y) m

/-- aca.c:92-100: scale the pivot column and subtract the cross. -/
def elimCross (a : Mat) (k : Nat) (Aij : 𝕜) (m : Mem 𝕜) : R (Mem 𝕜) := do
  let m ← forUp (k + 1) a.rows (fun i m => do
    let v ← m.read (a.addr i k)
    m.write (a.addr i k) (v * Aij)) m
  forUp (k + 1) a.cols (fun j m => forUp (k + 1) a.rows (fun i m => do
    let v ← m.read (a.addr i j)
    let l ← m.read (a.addr i k)
    let u ← m.read (a.addr k j)
    m.write (a.addr i j) (v - l * u)) m) m

/-- the variables of `decomp_fullaca_rkmatrix` that change in its main loop -/
structure FullSt (𝕜 : Type) where
  mem : Mem 𝕜
  rpivot : Arr Nat
  cpivot : Arr Nat
  rperm : Arr Nat
  cperm : Arr Nat
  k : Nat
  absAij : ℝ
  imax : Nat
  jmax : Nat

/-- aca.c:66-112: body of the main loop of `decomp_fullaca_rkmatrix`. -/
noncomputable def fullStep (a : Mat) (s : FullSt 𝕜) : R (FullSt 𝕜) := do
  let v ← s.mem.read (a.addr s.imax s.jmax)
  let Aij ← cdiv 1 v
  let rpivot ← swapArr s.rpivot s.k s.imax
  let cpivot ← swapArr s.cpivot s.k s.jmax
  let rperm ← s.rperm.set s.k s.imax
  let cperm ← s.cperm.set s.k s.jmax
  let m ← swapCols a s.k s.jmax s.mem
  let m ← swapRows a a.cols s.k s.imax m
  let m ← elimCross a s.k Aij m
  let (absAij, imax, jmax) ← findMax a (s.k + 1) s.imax s.jmax m
  pure ⟨m, rpivot, cpivot, rperm, cperm, s.k + 1, absAij, imax, jmax⟩

/-- aca.c:122-131: the first `k` columns of `c` become the lower triangular factor. -/
def copyLowerC (a c : Mat) (k : Nat) (m : Mem 𝕜) : R (Mem 𝕜) :=
  forUp 0 k (fun j m => do
    let m ← forUp 0 j (fun i m => m.write (c.addr i j) 0) m
    let m ← m.write (c.addr j j) 1
    forUp (j + 1) a.rows (fun i m => do
      let v ← m.read (a.addr i j)
      m.write (c.addr i j) v) m) m

/-- aca.c:132-139: the first `k` columns of `d` become the adjoint of the upper triangular factor. -/
def copyUpperD (a d : Mat) (k : Nat) (m : Mem 𝕜) : R (Mem 𝕜) :=
  forUp 0 k (fun j m => do
    let m ← forUp 0 j (fun i m => m.write (d.addr i j) 0) m
    forUp j a.cols (fun i m => do
      let v ← m.read (a.addr j i)
      m.write (d.addr i j) (star v)) m) m

/-- aca.c:142-151, 336-346: `reverse pivot permutations`. -/
def reversePerm (c d : Mat) (rperm cperm : Arr Nat) (k : Nat) (m : Mem 𝕜) : R (Mem 𝕜) :=
  forDown (fun i m => forUp 0 k (fun j m => do
    let y ← m.read (c.addr i j)
    let p ← rperm.get i
    let z ← m.read (c.addr p j)
    let m ← m.write (c.addr i j) z
    let m ← m.write (c.addr p j) y
    let y ← m.read (d.addr i j)
    let q ← cperm.get i
    let z ← m.read (d.addr q j)
    let m ← m.write (d.addr i j) z
    m.write (d.addr q j) y) m) k m

/-- aca.c:153-165, 350-362: copy the first `k` pivot indices. -/
def copyIdx (p : Arr Nat) (k : Nat) : R (Arr Nat) :=
  forUp 0 k (fun i (q : Arr Nat) => do
    let x ← p.get i
    q.set i x) ⟨k, fun _ => 0⟩

/-- rkmatrix.c:85-91 `resize_rkmatrix(r, rows, cols, k)`. -/
def resizeRk (al : Alloc 𝕜) (junk : Nat → 𝕜) (r : Rk) (rows cols k : Nat) (m : Mem 𝕜) : R (Rk × Mem 𝕜) := do
  let (A, m) ← resize r.A rows k (al (m.free r.A.base (r.A.ld * r.A.cols)) (rows * k)) junk m
  let (B, m) ← resize r.B cols k (al (m.free r.B.base (r.B.ld * r.B.cols)) (cols * k)) junk m
  pure (⟨A, B, k⟩, m)

/-- result of the two decompositions: the low-rank matrix, the pivot indices, the memory -/
structure AcaRes (𝕜 : Type) where
  r : Rk
  ridx : Arr Nat
  cidx : Arr Nat
  mem : Mem 𝕜

open Classical in
/-- aca.c:17-175 `decomp_fullaca_rkmatrix(A, accur, ridx, cidx, R)` with non-NULL `ridx` and `cidx`.  The main loop ends after at
most `maxrank` rounds because of its condition. -/
noncomputable def fullaca (al : Alloc 𝕜) (junk : Nat → 𝕜) (a : Mat) (accur : ℝ) (r : Rk) (m : Mem 𝕜) : R (AcaRes 𝕜) := do
  let maxrank := min a.rows a.cols
  let (absAij, imax, jmax) ← findMax a 0 0 0 m
  let tol := absAij * accur * accur
  let s ← whileF (fun s => decide (s.k < maxrank ∧ s.absAij > tol)) (fullStep a) maxrank
    (⟨m, idxArr a.rows id, idxArr a.cols id, ⟨maxrank, fun _ => 0⟩, ⟨maxrank, fun _ => 0⟩, 0, absAij, imax, jmax⟩ : FullSt 𝕜)
  let (r, m) ← resizeRk al junk r a.rows a.cols s.k s.mem
  let m ← copyLowerC a r.A s.k m
  let m ← copyUpperD a r.B s.k m
  let m ← reversePerm r.A r.B s.rperm s.cperm s.k m
  let ridx ← copyIdx s.rpivot s.k
  let cidx ← copyIdx s.cpivot s.k
  pure ⟨r, ridx, cidx, m⟩

/-- aca.h `matrixentry_t`: `entry(ridx, cidx, data, ntrans, N)` fills `N` with the entries given by the row indices `ridx` and the
column indices `cidx`, or with the adjoint. -/
abbrev Entry (𝕜 : Type) := (Nat → Nat) → (Nat → Nat) → Bool → Mat → Mem 𝕜 → R (Mem 𝕜)

/-- the variables of `decomp_partialaca_rkmatrix` that change in its main loop -/
structure PartSt (𝕜 : Type) where
  mem : Mem 𝕜
  A : Mat
  B : Mat
  rpiv : Arr Nat
  cpiv : Arr Nat
  rperm : Arr Nat
  cperm : Arr Nat
  k : Nat
  error : ℝ
  starterror : ℝ

open Classical in
/-- aca.c:226-233, 256-263: position of the maximum in column `q` of a matrix, from row `k` on; the state is `(M, i_k)`. -/
noncomputable def findMaxCol (a : Mat) (k n q : Nat) (m : Mem 𝕜) : R Nat := do
  let v ← m.read (a.addr k q)
  let (_, ik) ← forUp (k + 1) n (fun i (s : ℝ × Nat) => do
    let v ← m.read (a.addr i q)
    pure (if RCLike.normSq v > s.1 then (RCLike.normSq v, i) else s)) (RCLike.normSq v, k)
  pure ik

/-- aca.c:243-253, 268-278: zero the first `k` entries of column `k` of `b`, and subtract the columns `mu < k` times the entries
`(p, mu)` of `a`; `n` rows. -/
def subtractRk (a b : Mat) (n k p : Nat) (m : Mem 𝕜) : R (Mem 𝕜) := do
  let m ← forUp 0 k (fun j m => m.write (b.addr j k) 0) m
  forUp 0 k (fun mu m => do
    let Aij ← m.read (a.addr p mu)
    forUp k n (fun j m => do
      let v ← m.read (b.addr j k)
      let w ← m.read (b.addr j mu)
      m.write (b.addr j k) (v - w * Aij)) m) m

/-- aca.c:311-317, 322-329: `s = 0; for (i = k0; i < n; i++) s += ABSSQR(a[i + q * n])` -/
noncomputable def colSq (a : Mat) (k0 n q : Nat) (m : Mem 𝕜) : R ℝ :=
  forUp k0 n (fun i (s : ℝ) => do
    let v ← m.read (a.addr i q)
    pure (s + RCLike.normSq v)) 0

/-- aca.c:213-334: body of the main loop of `decomp_partialaca_rkmatrix`.  The pointers `aa` and `bb` are indexed with the leading
dimensions `rows` and `cols`. -/
noncomputable def partStep (al : Alloc 𝕜) (junk : Nat → 𝕜) (entry : Entry 𝕜) (rows cols : Nat) (s : PartSt 𝕜) : R (PartSt 𝕜) := do
  let k := s.k
  let (A, m) ← resizecopy s.A rows (k + 1) (al s.mem (rows * (k + 1))) junk s.mem
  let (B, m) ← resizecopy s.B cols (k + 1) (al m (cols * (k + 1))) junk m
  let aa : Mat := ⟨A.base, rows, rows, k + 1⟩
  let bb : Mat := ⟨B.base, cols, cols, k + 1⟩
  let A_k ← Dense.initSub A (rows - k) k 1 k
  let B_k ← Dense.initSub B (cols - k) k 1 k
  let i_k ← (if k > 0 then findMaxCol aa k rows (k - 1) m else pure (rows / 2))
  let m ← entry (fun i => s.rpiv.v (i_k + i)) (fun j => s.cpiv.v (k + j)) true B_k m
  let m ← conjugate B_k m
  let m ← subtractRk aa bb cols k i_k m
  let j_k ← findMaxCol bb k cols k m
  let m ← entry (fun i => s.rpiv.v (k + i)) (fun j => s.cpiv.v (j_k + j)) false A_k m
  let m ← subtractRk bb aa rows k j_k m
  let v ← m.read (bb.addr j_k k)
  let Aij ← cdiv 1 v
  let m ← forUp 0 rows (fun i m => do
    let v ← m.read (aa.addr i k)
    m.write (aa.addr i k) (v * Aij)) m
  let rpiv ← swapArr s.rpiv k i_k
  let rperm ← s.rperm.set k i_k
  let cpiv ← swapArr s.cpiv k j_k
  let cperm ← s.cperm.set k j_k
  let m ← swapRows aa (k + 1) k i_k m
  let m ← swapRows bb (k + 1) k j_k m
  let starterror ← (if k + 1 = 1 then do
      let e1 ← colSq aa 0 rows 0 m
      let e2 ← colSq bb 0 cols 0 m
      cdiv 1 (Real.sqrt (e1 * e2))
    else pure s.starterror)
  let e1 ← colSq aa k rows k m
  let e2 ← colSq bb k cols k m
  pure ⟨m, A, B, rpiv, cpiv, rperm, cperm, k + 1, Real.sqrt (e1 * e2) * starterror, starterror⟩

open Classical in
/-- aca.c:177-371 `decomp_partialaca_rkmatrix(entry, data, ridx, rows, cidx, cols, accur, rpivot, cpivot, R)` with non-NULL `rpivot`
and `cpivot`.  The main loop ends after at most `min rows cols` rounds because of its condition. -/
noncomputable def partialaca (al : Alloc 𝕜) (junk : Nat → 𝕜) (entry : Entry 𝕜) (ridx : Nat → Nat) (rows : Nat) (cidx : Nat → Nat)
    (cols : Nat) (accur : ℝ) (r : Rk) (m : Mem 𝕜) : R (AcaRes 𝕜) := do
  let s ← whileF (fun s => decide (s.error > accur ∧ s.k < rows ∧ s.k < cols)) (partStep al junk entry rows cols) (min rows cols)
    (⟨m, r.A, r.B, idxArr rows ridx, idxArr cols cidx, ⟨rows, fun _ => 0⟩, ⟨cols, fun _ => 0⟩, 0, 1, 1⟩ : PartSt 𝕜)
  let m ← reversePerm ⟨s.A.base, rows, rows, s.k⟩ ⟨s.B.base, cols, cols, s.k⟩ s.rperm s.cperm s.k s.mem
  let m ← conjugate s.B m
  let rpivot ← copyIdx s.rpiv s.k
  let cpivot ← copyIdx s.cpiv s.k
  pure ⟨⟨s.A, s.B, s.k⟩, rpivot, cpivot, m⟩

/-- aca.c:373-403 `copy_lower_aca_amatrix(unit, A, xi, B)`. -/
def copyLower (unit : Bool) (a : Mat) (xi : Arr Nat) (b : Mat) (m : Mem 𝕜) : R (Mem 𝕜) := do
  cassert (decide (b.rows ≤ a.rows))
  cassert (decide (b.cols = a.cols))
  forUp 0 a.cols (fun j m => do
    let m ← (if unit then m.write (b.addr j j) 1
      else do
        let ii ← xi.get j
        cassert (decide (ii < a.rows))
        let v ← m.read (a.addr ii j)
        m.write (b.addr j j) v)
    forUp (j + 1) b.rows (fun i m => do
      let ii ← xi.get i
      cassert (decide (ii < a.rows))
      let v ← m.read (a.addr ii j)
      m.write (b.addr i j) v) m) m

/-- aca.c:405-433 `copy_upper_aca_amatrix(unit, A, xi, B)`. -/
def copyUpper (unit : Bool) (a : Mat) (xi : Arr Nat) (b : Mat) (m : Mem 𝕜) : R (Mem 𝕜) := do
  cassert (decide (b.rows ≤ a.rows))
  cassert (decide (b.rows = a.cols))
  forUp 0 b.rows (fun j m => do
    let jj ← xi.get j
    cassert (decide (jj < a.rows))
    let m ← forUp 0 j (fun i m => do
      let v ← m.read (a.addr jj i)
      m.write (b.addr i j) v) m
    if unit then m.write (b.addr j j) 1
    else do
      let v ← m.read (a.addr jj j)
      m.write (b.addr j j) v) m

end H2.Aca
