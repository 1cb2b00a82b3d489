import Verif.Model.Krylov
import Mathlib.Analysis.RCLike.Basic
import Mathlib.Analysis.SpecialFunctions.Pow.NNReal

/-!
# Solvers built on Krylov methods (`Library/krylovsolvers.c`)

The callbacks and vectors are those of `Model/Krylov`.  The addresses of new vectors are given by the allocator and appear as parameters; `junk` is the content of
new memory.  Iteration numbers are computed modulo `2^32`; `fuel` bounds the number of rounds of the loop in the model.
-/

namespace H2.Krylov
open Dense
variable {𝕜 : Type} [RCLike 𝕜]

/-- avector.c:343-354 `norm2_avector(v)` (without BLAS) -/
noncomputable def norm2Vec (v : Vec) (m : Mem 𝕜) : R ℝ := do
  let s ← forUp 0 v.dim (fun i (s : ℝ) => do
    let x ← m.read (v.addr i)
    pure (s + RCLike.normSq x)) 0
  pure (Real.sqrt s)

open Classical in
/-- krylovsolvers.c:38-44 and 121-126: the loop of the solvers; the state consists of `error`, `iter` and the memory -/
noncomputable def solveLoop (step : Mem 𝕜 → R (Mem 𝕜)) (r : Vec) (tol : ℝ) (maxiter fuel : Nat) (s : ℝ × Nat × Mem 𝕜) : R (ℝ × Nat × Mem 𝕜) :=
  whileF (fun s => decide (s.1 > tol ∧ (s.2.1 + 1) % 2 ^ 32 ≠ maxiter)) (fun s => do
    let m ← step s.2.2
    let error ← norm2Vec r m
    pure (error, (s.2.1 + 1) % 2 ^ 32, m)) fuel s

/-- krylovsolvers.c:17-51 `solve_cg_avector(A, addeval_A, b, x, eps, maxiter)`; `nr`, `np`, `na` are the addresses of the new vectors -/
noncomputable def solveCg (addeval : AddEval 𝕜) (b x : Vec) (nr np na : Nat) (junk : Nat → 𝕜) (eps : ℝ) (maxiter fuel : Nat) (m : Mem 𝕜) : R (Nat × Mem 𝕜) := do
  let n := x.dim
  cassert (decide (b.dim = n))
  let m := m.alloc nr n junk
  let m := m.alloc np n junk
  let m := m.alloc na n junk
  let norm ← norm2Vec b m
  let m ← initCg addeval b x ⟨nr, n⟩ ⟨np, n⟩ m
  let error ← norm2Vec ⟨nr, n⟩ m
  let s ← solveLoop (stepCg addeval x ⟨nr, n⟩ ⟨np, n⟩ ⟨na, n⟩) ⟨nr, n⟩ (eps * norm) maxiter fuel (error, 0, m)
  let m := s.2.2.free na n
  let m := m.free np n
  let m := m.free nr n
  pure (s.2.1, m)

/-- krylovsolvers.c:98-134 `solve_pcg_avector(A, addeval_A, prcd, pdata, b, x, eps, maxiter)`; `nr`, `nq`, `np`, `na` are the addresses of the new vectors -/
noncomputable def solvePcg (addeval : AddEval 𝕜) (prcd : Option (Prcd 𝕜)) (b x : Vec) (nr nq np na : Nat) (junk : Nat → 𝕜) (eps : ℝ) (maxiter fuel : Nat) (m : Mem 𝕜) :
    R (Nat × Mem 𝕜) := do
  let n := x.dim
  cassert (decide (b.dim = n))
  let m := m.alloc nr n junk
  let m := m.alloc nq n junk
  let m := m.alloc np n junk
  let m := m.alloc na n junk
  let norm ← norm2Vec b m
  let m ← initPcg addeval prcd b x ⟨nr, n⟩ ⟨nq, n⟩ ⟨np, n⟩ m
  let error ← norm2Vec ⟨nr, n⟩ m
  let s ← solveLoop (stepPcg addeval prcd x ⟨nr, n⟩ ⟨nq, n⟩ ⟨np, n⟩ ⟨na, n⟩) ⟨nr, n⟩ (eps * norm) maxiter fuel (error, 0, m)
  let m := s.2.2.free na n
  let m := m.free np n
  let m := m.free nq n
  let m := m.free nr n
  pure (s.2.1, m)

end H2.Krylov
