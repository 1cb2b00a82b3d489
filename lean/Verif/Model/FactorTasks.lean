import Verif.Core.Par
import Verif.Model.Factor

/-!
# Task-parallel factorizations (`factorizations.c`, code without BLAS, with OpenMP)

The kernels executed by the tasks are written down a second time as sequences of single memory accesses, so that the
accesses of different tasks can be interleaved.
-/

namespace H2.Dense
variable {K : Type} [Field K] [StarRing K]

/-- `rowStep` as a sequence of accesses (factorizations.c:432-578) -/
def rowStepP (c : K → K) (ad : Nat → Nat → Nat) (unit : Bool) (x : Mat) (k lo hi : Nat) : Prog K :=
  Prog.seq (if unit then .ret
    else .read (ad k k) fun d => .forUp 0 x.cols fun j =>
      .read (x.addr k j) fun v => .write (x.addr k j) (v * (1 / c d)) .ret)
  (.forUp lo hi fun i => .forUp 0 x.cols fun j =>
    .read (x.addr i j) fun v => .read (ad i k) fun d => .read (x.addr k j) fun w => .write (x.addr i j) (v - c d * w) .ret)

/-- `colStep` as a sequence of accesses (factorizations.c:432-578) -/
def colStepP (c : K → K) (ad : Nat → Nat → Nat) (unit : Bool) (x : Mat) (k lo hi : Nat) : Prog K :=
  Prog.seq (if unit then .ret
    else .read (ad k k) fun d => .forUp 0 x.rows fun i =>
      .read (x.addr i k) fun v => .write (x.addr i k) (v * (1 / c d)) .ret)
  (.forUp 0 x.rows fun i => .forUp lo hi fun j =>
    .read (x.addr i j) fun v => .read (x.addr i k) fun w => .read (ad j k) fun d => .write (x.addr i j) (v - w * c d) .ret)

/-- factorizations.c:432-504 `lowersolve_amatrix(aunit, atrans, a, xtrans, x)`. -/
def lowersolveP (unit trans : Bool) (a : Mat) (xtrans : Bool) (x : Mat) : Prog K :=
  let n := min a.rows a.cols
  if trans then
    if xtrans then (Prog.assert (decide (n ≤ x.cols))).seq
      (.forDown (fun k => colStepP id (fun i j => a.addr j i) unit x k 0 k) n)
    else (Prog.assert (decide (n ≤ x.rows))).seq
      (.forDown (fun k => rowStepP star (fun i j => a.addr j i) unit x k 0 k) n)
  else
    if xtrans then (Prog.assert (decide (n ≤ x.cols))).seq
      (.forUp 0 n (fun k => colStepP star a.addr unit x k (k + 1) n))
    else (Prog.assert (decide (n ≤ x.rows))).seq
      (.forUp 0 n (fun k => rowStepP id a.addr unit x k (k + 1) n))

/-- factorizations.c:506-578 `uppersolve_amatrix(aunit, atrans, a, xtrans, x)`. -/
def uppersolveP (unit trans : Bool) (a : Mat) (xtrans : Bool) (x : Mat) : Prog K :=
  let n := min a.rows a.cols
  if trans then
    if xtrans then (Prog.assert (decide (n ≤ x.cols))).seq
      (.forUp 0 n (fun k => colStepP id (fun i j => a.addr j i) unit x k (k + 1) n))
    else (Prog.assert (decide (n ≤ x.rows))).seq
      (.forUp 0 n (fun k => rowStepP star (fun i j => a.addr j i) unit x k (k + 1) n))
  else
    if xtrans then (Prog.assert (decide (n ≤ x.cols))).seq
      (.forDown (fun k => colStepP star a.addr unit x k 0 k) n)
    else (Prog.assert (decide (n ≤ x.rows))).seq
      (.forDown (fun k => rowStepP id a.addr unit x k 0 k) n)

/-- factorizations.c:581-589 `triangularsolve_amatrix(alower, aunit, atrans, a, xtrans, x)`. -/
def trisolveP (lower unit trans : Bool) (a : Mat) (xtrans : Bool) (x : Mat) : Prog K :=
  if lower then lowersolveP unit trans a xtrans x else uppersolveP unit trans a xtrans x

/-- `c[p] += x` -/
def incrP (p : Nat) (x : K) : Prog K := .read p fun z => .write p (z + x) .ret

/-- amatrix.c:1046-1138 `addmul_amatrix(alpha, false, a, btrans, b, c)`. -/
def addmulP (alpha : K) (a : Mat) (btrans : Bool) (b c : Mat) : Prog K :=
  if a.rows = 0 ∨ a.cols = 0 ∨ b.rows = 0 ∨ b.cols = 0 then .ret
  else
    if btrans then
      (Prog.assert (decide (a.rows ≤ c.rows))).seq <| (Prog.assert (decide (b.rows ≤ c.cols))).seq <|
      (Prog.assert (decide (a.cols = b.cols))).seq <|
      .forUp 0 a.cols fun j => .forUp 0 b.rows fun k => .forUp 0 a.rows fun i =>
        .read (a.addr i j) fun x => .read (b.addr k j) fun y => incrP (c.addr i k) (alpha * x * star y)
    else
      (Prog.assert (decide (a.rows ≤ c.rows))).seq <| (Prog.assert (decide (b.cols ≤ c.cols))).seq <|
      (Prog.assert (decide (a.cols = b.rows))).seq <|
      .forUp 0 b.cols fun k => .forUp 0 a.cols fun j => .forUp 0 a.rows fun i =>
        .read (a.addr i j) fun x => .read (b.addr j k) fun y => incrP (c.addr i k) (alpha * x * y)

/-- The matrix `sa[i + j * blocks]` created in factorizations.c:1700-1713 by `new_sub_amatrix` (amatrix.c:169-179), which
also checks the assertions in `subBlocks`. -/
def sub (a : Mat) (blocks i j : Nat) : Mat :=
  ⟨a.base + blockOff a.rows blocks i + a.ld * blockOff a.rows blocks j, a.ld, blockSize a.rows blocks i, blockSize a.rows blocks j⟩

/-- factorizations.c:1699-1713: the assertions of `new_sub_amatrix` -/
def subBlocks (a : Mat) (blocks : Nat) (m : Mem K) : R (Mem K) :=
  forUp 0 blocks (fun j m => forUp 0 blocks (fun i m => do
    let _ ← subBlock a blocks i j
    pure m) m) m

/-- factorizations.c:1718-1748: one round of the parallel region of `lrdecomp_tasks_amatrix`.  Every `omp single` is
executed by one thread and ends with a barrier, at which all tasks created in it are completed; its tasks run concurrently. -/
noncomputable def lrTaskRound (a : Mat) (blocks k : Nat) : Beh K :=
  .seq (.det fun m => do
    let (_, m) ← lrdecomp (sub a blocks k k) m
    pure m) <|
  .seq (.par ((List.range' (k + 1) (blocks - (k + 1))).map fun j =>
    trisolveP true true false (sub a blocks k k) false (sub a blocks k j))) <|
  .seq (.par ((List.range' (k + 1) (blocks - (k + 1))).map fun i =>
    trisolveP false false true (sub a blocks k k) true (sub a blocks i k))) <|
  .par ((List.range' (k + 1) (blocks - (k + 1))).flatMap fun j => (List.range' (k + 1) (blocks - (k + 1))).map fun i =>
    addmulP (-1) (sub a blocks i k) false (sub a blocks k j) (sub a blocks i j))

/-- factorizations.c:1680-1758 `lrdecomp_tasks_amatrix(a, blocksize)`, with OpenMP tasks.  There is no `return` after the
call for small matrices (factorizations.c:1695-1696). -/
noncomputable def lrdecompTasks (a : Mat) (blocksize : Nat) : Beh K :=
  .seq (.det fun m => do
    cassert (decide (a.rows = a.cols))
    let m ← (if a.rows ≤ blocksize then do
        let (_, m) ← lrdecomp a m
        pure m
      else pure m)
    if blocksize = 0 then throw .ub else subBlocks a (a.rows / blocksize) m) <|
  .loop (lrTaskRound a (a.rows / blocksize)) (a.rows / blocksize) 0

end H2.Dense
