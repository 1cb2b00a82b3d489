import Verif.Model.QR
import Verif.Model.KrylovSolve

/-!
# GMRES with Householder reflections (`krylov.c:548-991`, `krylovsolvers.c:182-323`)

`field` is `ℝ` or `ℂ` (`RCLike`).  The vectors `b`, `x`, `rhat`, `q` and the matrix `qr` are windows of the memory, `tau` is separately allocated (an `Arr`).
Division by zero is the outcome `Err.nan`; the IEEE value `1 / 0 = inf`, with which `apply_givens` of the real build could continue, is not modelled.
The plain and the preconditioned variants consist of the same statements except for the calls of `prcd`; they are modelled by the same function with
an optional preconditioner.
-/

namespace H2.Krylov
open Dense
variable {𝕜 : Type} [RCLike 𝕜]

open Classical in
/-- krylov.c:552-578: the numbers `c`, `s` and `rho` for a rotation that eliminates `bb` -/
noncomputable def findGivens (aa bb : 𝕜) : R (𝕜 × 𝕜 × 𝕜) :=
  if ‖bb‖ ^ 2 < ‖aa‖ ^ 2 then do
    let t ← cdiv bb aa
    let c : 𝕜 := ((1 / √(‖t‖ ^ 2 + 1) : ℝ) : 𝕜)
    let s := t * c
    pure (c, s, s)
  else if ‖aa‖ ^ 2 < ‖bb‖ ^ 2 then do
    let t ← cdiv aa bb
    let s : 𝕜 := ((1 / √(‖t‖ ^ 2 + 1) : ℝ) : 𝕜)
    let c := t * s
    let rho ← cdiv 1 c
    pure (c, s, rho)
  else pure (1, 0, 1)

/-- krylov.c:552-585 `findapply_givens(a, b)` for the addresses `a` and `b`; returns `rho` -/
noncomputable def findapplyGivens (a b : Nat) (m : Mem 𝕜) : R (𝕜 × Mem 𝕜) := do
  let aa ← m.read a
  let bb ← m.read b
  let (c, s, rho) ← findGivens aa bb
  let m ← m.write a (c * aa + s * bb)
  let m ← m.write b 0
  pure (rho, m)

open Classical in
/-- krylov.c:594-605: recover `c` and `s` from `rho` -/
noncomputable def givensCS (rho : 𝕜) : 𝕜 × 𝕜 :=
  if ‖rho‖ ^ 2 < 1 then (((√(1 - ‖rho‖ ^ 2) : ℝ) : 𝕜), rho)
  else if ‖rho‖ ^ 2 > 1 then (1 / rho, ((√(1 - ‖1 / rho‖ ^ 2) : ℝ) : 𝕜))
  else (1, 0)

/-- krylov.c:587-609 `apply_givens(rho, a, b)` for the addresses `a` and `b` -/
noncomputable def applyGivens (rho : 𝕜) (a b : Nat) (m : Mem 𝕜) : R (Mem 𝕜) := do
  let aa ← m.read a
  let bb ← m.read b
  let m ← m.write a ((givensCS rho).1 * aa + (givensCS rho).2 * bb)
  m.write b ((givensCS rho).1 * bb - (givensCS rho).2 * aa)

/-- the variables that are changed by the functions: dimension `*kk`, `tau` and the memory -/
structure GSt (𝕜 : Type) where
  k : Nat
  tau : Arr 𝕜
  m : Mem 𝕜

/-- krylov.c:611-656 `init_gmres(addeval, matrix, b, x, rhat, q, kk, qr, tau)` (no preconditioner),
krylov.c:830-877 `init_pgmres(addeval, matrix, prcd, pdata, b, x, rhat, q, kk, qr, tau)` -/
noncomputable def initGmres (sgn : 𝕜 → 𝕜) (tiny : ℝ) (junk : Nat → 𝕜) (addeval : AddEval 𝕜) (prcd : Option (Prcd 𝕜)) (b x rhat q : Vec) (qr : Mat) (st : GSt 𝕜) : R (GSt 𝕜) := do
  cassert (decide (b.dim = x.dim))
  cassert (decide (b.dim = q.dim))
  cassert (decide (b.dim = qr.rows))
  cassert (decide (qr.cols ≤ st.tau.n))
  if qr.cols < 1 then pure st
  else do
    let r ← initColumn qr 0
    let m ← copyVec b r st.m
    let m ← addeval (-1) x r m
    let m ← applyPrcd prcd r m
    let qr_k ← initSub qr qr.rows 0 1 0
    let (tau, m) ← qrdecomp sgn tiny junk qr_k st.tau m
    let m ← clearVec q m
    let m ← m.write (q.addr 0) 1
    let m ← qrevalVec false qr_k tau q m
    let m ← clearVec rhat m
    let v ← m.read (qr.addr 0 0)
    let m ← m.write (rhat.addr 0) v
    pure ⟨0, tau, m⟩

/-- krylov.c:682-698 (903-920 for `step_pgmres`): the product of the matrix and `q` in column `k + 1`, multiplied by the previous reflections, and the next reflection -/
noncomputable def stepColumn (sgn : 𝕜 → 𝕜) (tiny : ℝ) (junk : Nat → 𝕜) (addeval : AddEval 𝕜) (prcd : Option (Prcd 𝕜)) (q : Vec) (qr : Mat) (st : GSt 𝕜) : R (GSt 𝕜) := do
  let k := st.k
  let a ← initColumn qr (k + 1)
  let m ← clearVec a st.m
  let m ← addeval 1 q a m
  let m ← applyPrcd prcd a m
  let qr_k ← initSub qr qr.rows 0 (k + 1) 0
  let m ← qrevalVec true qr_k st.tau a m
  let qr_k ← initSub qr (qr.rows - (k + 1)) (k + 1) 1 (k + 1)
  cassert (decide (1 + (k + 1) ≤ st.tau.n))
  let (tau_k, m) ← qrdecomp sgn tiny junk qr_k ⟨1, fun i => st.tau.v (k + 1 + i)⟩ m
  pure ⟨k, ⟨st.tau.n, fun i => if i = k + 1 then tau_k.v 0 else st.tau.v i⟩, m⟩

/-- krylov.c:700-705 (922-927): the next orthogonal direction -/
noncomputable def stepDirection (q : Vec) (qr : Mat) (st : GSt 𝕜) : R (GSt 𝕜) := do
  let qr_k ← initSub qr qr.rows 0 (st.k + 2) 0
  let m ← clearVec q st.m
  let m ← m.write (q.addr (st.k + 1)) 1
  let m ← qrevalVec false qr_k st.tau q m
  pure { st with m := m }

/-- krylov.c:707-721 (929-943): the rotations -/
noncomputable def stepRotate (rhat : Vec) (qr : Mat) (st : GSt 𝕜) : R (GSt 𝕜) := do
  let k := st.k
  let m ← forUp 0 k (fun i m => do
    let rho ← m.read (qr.addr (i + 1) (i + 1))
    applyGivens rho (qr.addr i (k + 1)) (qr.addr (i + 1) (k + 1)) m) st.m
  let (rho, m) ← findapplyGivens (qr.addr k (k + 1)) (qr.addr (k + 1) (k + 1)) m
  let m ← m.write (qr.addr (k + 1) (k + 1)) rho
  let m ← applyGivens rho (rhat.addr k) (rhat.addr (k + 1)) m
  pure ⟨k + 1, st.tau, m⟩

/-- krylov.c:658-722 `step_gmres(addeval, matrix, b, x, rhat, q, kk, qr, tau)` (no preconditioner),
krylov.c:879-944 `step_pgmres(addeval, matrix, prcd, pdata, b, x, rhat, q, kk, qr, tau)`; `init_sub_avector(&tmp2, tau, 1, k + 1)` is modelled as a copy of the
entry that is stored back afterwards. -/
noncomputable def stepGmres (sgn : 𝕜 → 𝕜) (tiny : ℝ) (junk : Nat → 𝕜) (addeval : AddEval 𝕜) (prcd : Option (Prcd 𝕜)) (rhat q : Vec) (qr : Mat) (st : GSt 𝕜) : R (GSt 𝕜) :=
  if st.k + 1 ≥ qr.cols then pure st
  else do
    let st ← stepColumn sgn tiny junk addeval prcd q qr st
    let st ← stepDirection q qr st
    stepRotate rhat qr st

/-- krylov.c:744-760 (966-982): the new iterate -/
noncomputable def finishUpdate (x rhat : Vec) (qr : Mat) (st : GSt 𝕜) : R (Mem 𝕜) := do
  let k := st.k
  let rhat_k ← initSubVec rhat k 0
  let qr_k ← initSub qr k 0 k 1
  let m ← trisolveVec false false false qr_k rhat_k st.m
  let rhat_k ← initSubVec rhat (rhat.dim - k) k
  let m ← clearVec rhat_k m
  let qr_k ← initSub qr qr.rows 0 k 0
  let m ← qrevalVec false qr_k st.tau rhat m
  addVec 1 rhat x m

/-- krylov.c:724-763 `finish_gmres(addeval, matrix, b, x, rhat, q, kk, qr, tau)` (no preconditioner),
krylov.c:946-985 `finish_pgmres(addeval, matrix, prcd, pdata, b, x, rhat, q, kk, qr, tau)` -/
noncomputable def finishGmres (sgn : 𝕜 → 𝕜) (tiny : ℝ) (junk : Nat → 𝕜) (addeval : AddEval 𝕜) (prcd : Option (Prcd 𝕜)) (b x rhat q : Vec) (qr : Mat) (st : GSt 𝕜) : R (GSt 𝕜) := do
  let m ← finishUpdate x rhat qr st
  initGmres sgn tiny junk addeval prcd b x rhat q qr { st with m := m }

/-- krylov.c:765-769 `residualnorm_gmres(rhat, k)`, krylov.c:987-991 `residualnorm_pgmres(rhat, k)` -/
noncomputable def residualnormGmres (rhat : Vec) (k : Nat) (m : Mem 𝕜) : R ℝ := do
  let v ← m.read (rhat.addr k)
  pure ‖v‖

open Classical in
/-- krylovsolvers.c:206-216 and 301-311: the loop of the solvers; the state consists of `error`, `iter` and the state of the method -/
noncomputable def gmresLoop (sgn : 𝕜 → 𝕜) (tiny : ℝ) (junk : Nat → 𝕜) (addeval : AddEval 𝕜) (prcd : Option (Prcd 𝕜)) (b x rhat q : Vec) (qr : Mat) (tol : ℝ)
    (maxiter fuel : Nat) (s : ℝ × Nat × GSt 𝕜) : R (ℝ × Nat × GSt 𝕜) :=
  whileF (fun s => decide (s.1 > tol ∧ (s.2.1 + 1) % 2 ^ 32 ≠ maxiter)) (fun s => do
    let st ← (if s.2.2.k + 1 ≥ qr.cols then finishGmres sgn tiny junk addeval prcd b x rhat q qr s.2.2 else pure s.2.2)
    let st ← stepGmres sgn tiny junk addeval prcd rhat q qr st
    let error ← residualnormGmres rhat st.k st.m
    pure (error, (s.2.1 + 1) % 2 ^ 32, st)) fuel s

/-- krylovsolvers.c:182-226 `solve_gmres_avector(A, addeval_A, b, x, eps, maxiter, kmax)`; `nrhat`, `nr`, `nq`, `nqr` are the addresses of the new vectors and matrix,
`k0` is the initial value of the variable `k` -/
noncomputable def solveGmres (sgn : 𝕜 → 𝕜) (tiny : ℝ) (addeval : AddEval 𝕜) (b x : Vec) (nrhat nr nq nqr k0 : Nat) (junk junkT : Nat → 𝕜)
    (eps : ℝ) (maxiter kmax fuel : Nat) (m : Mem 𝕜) : R (Nat × Mem 𝕜) := do
  let n := x.dim
  cassert (decide (b.dim = n))
  let m := m.alloc nrhat n junk
  let m := m.alloc nr n junk
  let m := m.alloc nq n junk
  let m := m.alloc nqr (n * kmax) junk
  let norm ← norm2Vec b m
  let st ← initGmres sgn tiny junkT addeval none b x ⟨nrhat, n⟩ ⟨nq, n⟩ ⟨nqr, n, n, kmax⟩ ⟨k0, ⟨kmax, junkT⟩, m⟩
  let error ← residualnormGmres ⟨nrhat, n⟩ st.k st.m
  let s ← gmresLoop sgn tiny junkT addeval none b x ⟨nrhat, n⟩ ⟨nq, n⟩ ⟨nqr, n, n, kmax⟩ (eps * norm) maxiter fuel (error, 0, st)
  let st ← finishGmres sgn tiny junkT addeval none b x ⟨nrhat, n⟩ ⟨nq, n⟩ ⟨nqr, n, n, kmax⟩ s.2.2
  let m := st.m.free nqr (n * kmax)
  let m := m.free nq n
  let m := m.free nr n
  let m := m.free nrhat n
  pure (s.2.1, m)

/-- krylovsolvers.c:274-323 `solve_pgmres_avector(A, addeval_A, prcd, pdata, b, x, eps, maxiter, kmax)` -/
noncomputable def solvePgmres (sgn : 𝕜 → 𝕜) (tiny : ℝ) (addeval : AddEval 𝕜) (prcd : Prcd 𝕜) (b x : Vec) (nrhat nr nq nqr k0 : Nat) (junk junkT : Nat → 𝕜)
    (eps : ℝ) (maxiter kmax fuel : Nat) (m : Mem 𝕜) : R (Nat × Mem 𝕜) := do
  let n := x.dim
  cassert (decide (b.dim = n))
  let m := m.alloc nrhat n junk
  let m := m.alloc nr n junk
  let m := m.alloc nq n junk
  let m := m.alloc nqr (n * kmax) junk
  let m ← copyVec b ⟨nr, n⟩ m
  let m ← prcd ⟨nr, n⟩ m
  let norm ← norm2Vec ⟨nr, n⟩ m
  let st ← initGmres sgn tiny junkT addeval (some prcd) b x ⟨nrhat, n⟩ ⟨nq, n⟩ ⟨nqr, n, n, kmax⟩ ⟨k0, ⟨kmax, junkT⟩, m⟩
  let error ← residualnormGmres ⟨nrhat, n⟩ st.k st.m
  let s ← gmresLoop sgn tiny junkT addeval (some prcd) b x ⟨nrhat, n⟩ ⟨nq, n⟩ ⟨nqr, n, n, kmax⟩ (eps * norm) maxiter fuel (error, 0, st)
  let st ← (if s.2.2.k > 0 then finishGmres sgn tiny junkT addeval (some prcd) b x ⟨nrhat, n⟩ ⟨nq, n⟩ ⟨nqr, n, n, kmax⟩ s.2.2 else pure s.2.2)
  let m := st.m.free nqr (n * kmax)
  let m := m.free nq n
  let m := m.free nr n
  let m := m.free nrhat n
  pure (s.2.1, m)

end H2.Krylov
