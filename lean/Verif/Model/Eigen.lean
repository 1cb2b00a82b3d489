import Verif.Model.Harith
import Verif.Model.Heapsort
import Verif.Model.Krylov
import Verif.Model.QR

/-!
# Eigenvalues of self-adjoint matrices (`Library/eigensolvers.c`, code without BLAS)

`field` is `ℝ` or `ℂ` (`RCLike`), `real` is `ℝ`, arithmetic is exact; division by zero is the outcome `Err.nan` (the C code would continue with
NaN).  Simplification: matrices are separately allocated and given by their values (`VMat`) with bounds checks; the submatrices
`init_sub_tridiag` and `init_sub_amatrix` of the QR iteration are modelled by an offset.  `eps` is `H2_QR_EPS`.
-/

namespace H2
namespace VMat
variable {K : Type}

/-- read `a->a[i + j * ld]` -/
def get (a : VMat K) (i j : Nat) : R K := if i < a.rows ∧ j < a.cols then .ok (a.e i j) else .error .ub

/-- write `a->a[i + j * ld]` -/
def set (a : VMat K) (i j : Nat) (x : K) : R (VMat K) :=
  if i < a.rows ∧ j < a.cols then .ok ⟨a.rows, a.cols, fun k l => if k = i ∧ l = j then x else a.e k l⟩ else .error .ub

end VMat

namespace Eig
open Krylov
variable {𝕜 : Type} [RCLike 𝕜]

/-- eigensolvers.h:33-54 `struct _tridiag`: diagonal `d`, superdiagonal `u` and subdiagonal `l`; `size` is the length of `d`. -/
structure Tri where
  d : Arr ℝ
  u : Arr ℝ
  l : Arr ℝ

/-- eigensolvers.c:27-37 `init_tridiag(T, size)`; the new storage holds `junk`. -/
def initTri (junk : Nat → ℝ) (size : Nat) : Tri := ⟨⟨size, junk⟩, ⟨size - 1, junk⟩, ⟨size - 1, junk⟩⟩

open Classical in
/-- eigensolvers.c:439-458 `givens(a, b, c, s)` -/
noncomputable def givens (a b : ℝ) : R (ℝ × ℝ) :=
  if a = 0 ∧ b = 0 then pure (1, 0)
  else if |a| > |b| then do
    let t ← cdiv b a
    let c := 1 / √(1 + t ^ 2)
    pure (c, t * c)
  else do
    let t ← cdiv a b
    let s := 1 / √(1 + t ^ 2)
    pure (t * s, s)

/-- eigensolvers.c:501-507, 531-537: apply a rotation to the columns `p` and `p + 1` of `Q` -/
def rotCols (p : Nat) (c s : ℝ) (Q : VMat 𝕜) : R (VMat 𝕜) :=
  forUp 0 Q.rows (fun j Q => do
    let x ← Q.get j p
    let y ← Q.get j (p + 1)
    let Q ← Q.set j p ((c : 𝕜) * x + (s : 𝕜) * y)
    Q.set j (p + 1) (-(s : 𝕜) * x + (c : 𝕜) * y)) Q

/-- `if (Q) …` -/
def optQ (f : VMat 𝕜 → R (VMat 𝕜)) (Q : Option (VMat 𝕜)) : R (Option (VMat 𝕜)) :=
  match Q with
  | none => pure none
  | some Q => do
    let Q ← f Q
    pure (some Q)

/-- eigensolvers.c:489-498, 519-528: apply a rotation to the rows and columns `p`, `p + 1` of the tridiagonal matrix -/
def rotDiag (p : Nat) (c s : ℝ) (d l : Arr ℝ) : R (Arr ℝ × Arr ℝ) := do
  let ap ← d.get p
  let bp ← l.get p
  let aq ← d.get (p + 1)
  let a0 := c * ap + s * bp
  let b0 := -s * ap + c * bp
  let b0t := c * bp + s * aq
  let a1 := -s * bp + c * aq
  let d ← d.set p (c * a0 + s * b0t)
  let l ← l.set p (c * b0 + s * a1)
  let d ← d.set (p + 1) (-s * b0 + c * a1)
  pure (d, l)

/-- variables of the QR step -/
structure StepSt (𝕜 : Type) where
  d : Arr ℝ
  l : Arr ℝ
  c : ℝ
  s : ℝ
  Q : Option (VMat 𝕜)

/-- eigensolvers.c:464-541 `qrstep_tridiag(T, shift, Q)` for the submatrix of size `n` that starts at `off` -/
noncomputable def qrSweep (off n : Nat) (shift : ℝ) (d l : Arr ℝ) (Q : Option (VMat 𝕜)) : R (StepSt 𝕜) :=
  if n < 2 then pure ⟨d, l, 1, 0, Q⟩
  else do
    let a0 ← d.get off
    let b0 ← l.get off
    let (c, s) ← givens (a0 - shift) b0
    let (d, l) ← rotDiag off c s d l
    let Q ← optQ (rotCols off c s) Q
    forUp 1 (n - 1) (fun i (st : StepSt 𝕜) => do
      let bi ← st.l.get (off + i)
      let carry := st.s * bi
      let l ← st.l.set (off + i) (st.c * bi)
      let bm ← l.get (off + i - 1)
      let (c, s) ← givens bm carry
      let l ← l.set (off + i - 1) (c * bm + s * carry)
      let (d, l) ← rotDiag (off + i) c s st.d l
      let Q ← optQ (rotCols (off + i) c s) st.Q
      pure ⟨d, l, c, s, Q⟩) ⟨d, l, c, s, Q⟩

/-- eigensolvers.c:464-541 `qrstep_tridiag(T, shift, Q)` -/
noncomputable def qrstep (T : Tri) (shift : ℝ) (Q : Option (VMat 𝕜)) : R (Tri × Option (VMat 𝕜)) := do
  cassert (match Q with | none => true | some Q => decide (Q.cols = T.d.n))
  let st ← qrSweep 0 T.d.n shift T.d T.l Q
  pure (⟨st.d, T.u, st.l⟩, st.Q)

open Classical in
/-- eigensolvers.c:637-642, 680-685: `while (off < n - 1 && REAL_ABS(b[off]) < H2_QR_EPS * (…)) { b[off] = 0.0; off++; }`; the first argument is
`n - 1 - off`. -/
noncomputable def deflate (eps : ℝ) (d : Arr ℝ) : Nat → Nat → Arr ℝ → R (Nat × Arr ℝ)
  | 0, off, l => pure (off, l)
  | k + 1, off, l => do
    let b ← l.get off
    let a ← d.get off
    let a' ← d.get (off + 1)
    if |b| < eps * (|a| + |a'|) then do
      let l ← l.set off 0
      deflate eps d k (off + 1) l
    else pure (off, l)

open Classical in
/-- eigensolvers.c:649-654: `while (size < n - off && REAL_ABS(b[off + size - 1]) >= H2_QR_EPS * (…)) size++;`; the first argument is
`n - off - size`. -/
noncomputable def blockSize (eps : ℝ) (d l : Arr ℝ) (off : Nat) : Nat → Nat → R Nat
  | 0, size => pure size
  | k + 1, size => do
    let b ← l.get (off + size - 1)
    let a ← d.get (off + size - 1)
    let a' ← d.get (off + size)
    if |b| ≥ eps * (|a| + |a'|) then blockSize eps d l off k (size + 1) else pure size

open Classical in
/-- eigensolvers.c:656-666: the Wilkinson shift for the last two rows and columns of the block -/
noncomputable def wilkinson (a0 a1 b0 : ℝ) : R ℝ := do
  let m := (a0 + a1) * 0.5
  let d := (a0 - a1) * 0.5
  let db ← (if |d| > |b0| then do
      let t ← cdiv b0 d
      pure (|d| * √(1 + t ^ 2))
    else do
      let t ← cdiv d b0
      pure (|b0| * √(1 + t ^ 2)))
  let lambda1 := if m > 0 then m + db else m - db
  if m * d < 0 then pure lambda1 else cdiv (a0 * a1 - |b0| ^ 2) lambda1

/-- variables of the QR iteration -/
structure IterSt (𝕜 : Type) where
  d : Arr ℝ
  l : Arr ℝ
  Q : Option (VMat 𝕜)
  off : Nat
  iter : Nat

/-- eigensolvers.c:645-685: one round of the iteration for a matrix of size `n`.  The assertions are those of `init_sub_tridiag`,
`init_sub_amatrix` and `qrstep_tridiag`. -/
noncomputable def qrRound (eps : ℝ) (n : Nat) (st : IterSt 𝕜) : R (IterSt 𝕜) := do
  let size ← blockSize eps st.d st.l st.off (n - st.off - 2) 2
  let a0 ← st.d.get (st.off + size - 2)
  let a1 ← st.d.get (st.off + size - 1)
  let b0 ← st.l.get (st.off + size - 2)
  let lambda ← wilkinson a0 a1 b0
  cassert (decide (st.off + size ≤ n))
  cassert (match st.Q with | none => true | some Q => decide (st.off + size ≤ Q.cols))
  let r ← qrSweep st.off size lambda st.d st.l st.Q
  let (off, l) ← deflate eps r.d (n - 1 - st.off) st.off r.l
  pure ⟨r.d, l, r.Q, off, st.iter + 1⟩

open Classical in
/-- eigensolvers.c:694-697 with 552-562 `evp_leq` and 576-614 `evp_swap`: sort the eigenvalues; the entries are the eigenvalues together with the
columns of `Q`. -/
noncomputable def sortEig (n : Nat) (d : Arr ℝ) (Q : Option (VMat 𝕜)) : Arr ℝ × Option (VMat 𝕜) :=
  match Q with
  | none =>
    let a := Heapsort.heapsort (fun x y : ℝ => decide (x ≤ y)) n d.v
    (⟨d.n, a⟩, none)
  | some Q =>
    let a := Heapsort.heapsort (fun x y : ℝ × (Nat → 𝕜) => decide (x.1 ≤ y.1)) n (fun i => (d.v i, fun k => Q.e k i))
    (⟨d.n, fun i => (a i).1⟩, some ⟨Q.rows, Q.cols, fun k i => (a i).2 k⟩)

/-- eigensolvers.c:616-700 `sb_muleig_tridiag(T, Q, maxiter)`.  For `maxiter = 0` the iteration is not limited; `fuel` is the number of rounds the
model is prepared to take. -/
noncomputable def muleig (eps : ℝ) (fuel : Nat) (T : Tri) (Q : Option (VMat 𝕜)) (maxiter : Nat) : R (Tri × Option (VMat 𝕜) × Nat) :=
  let n := T.d.n
  if n < 1 then pure (T, Q, 0)
  else do
    let (off, l) ← deflate eps T.d (n - 1) 0 T.l
    let st ← whileF (fun st : IterSt 𝕜 => decide (st.off < n - 1) && (decide (maxiter = 0) || decide (st.iter < maxiter)))
      (qrRound eps n) fuel ⟨T.d, l, Q, off, 0⟩
    let (d, Q) := sortEig n st.d st.Q
    pure (⟨d, T.u, st.l⟩, Q, st.iter)

/-- amatrix.c:377-394 `identity_amatrix(a)` (values) -/
def identityV (Q : VMat 𝕜) : VMat 𝕜 := ⟨Q.rows, Q.cols, fun i j => if i = j then 1 else 0⟩

/-- eigensolvers.c:736-743 `eig_tridiag(T, Q)` with 724-733 `muleig_tridiag(T, Q)`; the last component is the result of the function. -/
noncomputable def eigTri (eps : ℝ) (T : Tri) (Q : Option (VMat 𝕜)) : R (Tri × Option (VMat 𝕜) × Nat) := do
  let Q := Q.map identityV
  let maxiter := 32 * T.d.n
  let (T, Q, iter) ← muleig eps maxiter T Q maxiter
  pure (T, Q, if iter < maxiter then 0 else 1)

end Eig
end H2
