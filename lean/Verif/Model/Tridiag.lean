import Verif.Model.Eigen

/-!
# Tridiagonalization and eigenvalues of self-adjoint matrices (`Library/eigensolvers.c`, code without BLAS)

Conventions as in `Verif.Model.Eigen`; `tiny` is `H2_ALMOST_ZERO`, `sgn` the function `SIGN1`.
-/

namespace H2
namespace Eig
open Krylov
variable {𝕜 : Type} [RCLike 𝕜]

/-- eigensolvers.c:796-799: squared norm of the entries `k + 1, …, n - 1` of column `k` -/
def subNorm2 (n k : Nat) (A : VMat 𝕜) : R ℝ := do
  let x ← A.get (k + 1) k
  forUp (k + 2) n (fun i norm2 => do
    let x ← A.get i k
    pure (norm2 + ‖x‖ ^ 2)) (‖x‖ ^ 2)

/-- eigensolvers.c:827-835: apply the reflection with the vector in column `k` of the matrix to column `j` -/
def reflCol (n k : Nat) (beta : 𝕜) (j : Nat) (A : VMat 𝕜) : R (VMat 𝕜) := do
  let gamma ← A.get (k + 1) j
  let gamma ← forUp (k + 2) n (fun i gamma => do
    let v ← A.get i k
    let x ← A.get i j
    pure (gamma + star v * x)) gamma
  let gamma := gamma * beta
  let x ← A.get (k + 1) j
  let A ← A.set (k + 1) j (x - gamma)
  forUp (k + 2) n (fun i A => do
    let x ← A.get i j
    let v ← A.get i k
    A.set i j (x - gamma * v)) A

/-- eigensolvers.c:840-848 and 854-862: apply the reflection to row `j` of `B`; `rd` reads the entries of the vector from column `k` of `A`, where `A`
is the same matrix as `B` in the first case. -/
def reflRow (n k : Nat) (beta : 𝕜) (rd : VMat 𝕜 → Nat → R 𝕜) (j : Nat) (B : VMat 𝕜) : R (VMat 𝕜) := do
  let gamma ← B.get j (k + 1)
  let gamma ← forUp (k + 2) n (fun i gamma => do
    let v ← rd B i
    let x ← B.get j i
    pure (gamma + v * x)) gamma
  let gamma := gamma * beta
  let x ← B.get j (k + 1)
  let B ← B.set j (k + 1) (x - gamma)
  forUp (k + 2) n (fun i B => do
    let x ← B.get j i
    let v ← rd B i
    B.set j i (x - gamma * star v)) B

/-- variables of the tridiagonalization -/
structure TdSt (𝕜 : Type) where
  A : VMat 𝕜
  T : Tri
  Q : VMat 𝕜
  psign : 𝕜

/-- eigensolvers.c:808-871: the step for a column that does not vanish -/
noncomputable def tdHouse (sgn : 𝕜 → 𝕜) (n k : Nat) (norm2 : ℝ) (st : TdSt 𝕜) : R (TdSt 𝕜) := do
  let norm := √norm2
  let first ← st.A.get (k + 1) k
  let alpha : 𝕜 := -sgn first * (norm : 𝕜)
  let gamma := first - alpha
  let beta : ℝ ← cdiv 1 (norm2 + ‖first‖ * norm)
  let A ← forUp (k + 2) n (fun i A => do
    let x ← A.get i k
    let q ← cdiv x gamma
    A.set i k q) st.A
  let beta : 𝕜 := (beta : 𝕜) * ((‖gamma‖ ^ 2 : ℝ) : 𝕜)
  let nsign := sgn alpha
  let akk ← A.get k k
  let d ← st.T.d.set k (RCLike.re akk)
  let u ← st.T.u.set k ‖alpha‖
  let l ← st.T.l.set k ‖alpha‖
  let A ← forUp (k + 1) n (reflCol n k beta) A
  let A ← forUp (k + 1) n (reflRow n k beta fun A i => A.get i k) A
  let Q ← forUp 0 n (reflRow n k beta fun _ i => A.get i k) st.Q
  let Q ← forUp 0 n (fun j Q => do
    let x ← Q.get j (k + 1)
    Q.set j (k + 1) (x * (nsign * star st.psign))) Q
  pure ⟨A, ⟨d, u, l⟩, Q, st.psign * star nsign⟩

open Classical in
/-- eigensolvers.c:794-872: step `k` of the tridiagonalization -/
noncomputable def tdStep (sgn : 𝕜 → 𝕜) (tiny : ℝ) (n k : Nat) (st : TdSt 𝕜) : R (TdSt 𝕜) := do
  let norm2 ← subNorm2 n k st.A
  if norm2 ≤ tiny then do
    let akk ← st.A.get k k
    let d ← st.T.d.set k (RCLike.re akk)
    let l ← st.T.l.set k 0
    let u ← st.T.u.set k 0
    pure ⟨st.A, ⟨d, u, l⟩, st.Q, st.psign⟩
  else tdHouse sgn n k norm2 st

/-- eigensolvers.c:749-875 `sb_tridiagonalize_amatrix(A, T, Q)`; the assertions in lines 766-767 read `Q->rows` and `Q->cols` even if `Q` is a
null pointer. -/
noncomputable def tridiagonalize (sgn : 𝕜 → 𝕜) (tiny : ℝ) (A : VMat 𝕜) (T : Tri) (Q : Option (VMat 𝕜)) :
    R (VMat 𝕜 × Tri × Option (VMat 𝕜)) := do
  let n := A.rows
  cassert (decide (A.cols = n))
  match Q with
  | none => throw .ub
  | some Q => do
    cassert (decide (Q.rows = n))
    cassert (decide (Q.cols = n))
    cassert (decide (T.d.n = n))
    let Q := identityV Q
    if n < 1 then pure (A, T, some Q)
    else if n < 2 then do
      let a ← A.get 0 0
      let d ← T.d.set 0 (RCLike.re a)
      pure (A, ⟨d, T.u, T.l⟩, some Q)
    else do
      let st ← forUp 0 (n - 1) (tdStep sgn tiny n) ⟨A, T, Q, 1⟩
      let a ← st.A.get (n - 1) (n - 1)
      let d ← st.T.d.set (n - 1) (RCLike.re a)
      pure (st.A, ⟨d, st.T.u, st.T.l⟩, some st.Q)

end Eig
end H2
