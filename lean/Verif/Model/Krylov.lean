import Verif.Model.Dense

/-!
# Krylov methods (`krylov.c`)

The matrices and preconditioners are passed as callbacks (krylov.h: `addeval_t`, `mvm_t`, `prcd_t`).  The vectors are windows of
the memory.  A division by zero is the outcome `Err.nan`.
-/

namespace H2.Krylov
open Dense
variable {K : Type} [Field K] [StarRing K]

/-- krylov.h `addeval_t`: `addeval(alpha, matrix, x, y)` is expected to add `alpha A x` to `y`. -/
abbrev AddEval (K : Type) := K → Vec → Vec → Mem K → R (Mem K)
/-- krylov.h `mvm_t`: `mvm(alpha, trans, matrix, x, y)` is expected to add `alpha A x` or `alpha A^* x` to `y`. -/
abbrev MvmCb (K : Type) := K → Bool → Vec → Vec → Mem K → R (Mem K)
/-- krylov.h `prcd_t`: `prcd(pdata, x)` replaces `x` by the preconditioned vector. -/
abbrev Prcd (K : Type) := Vec → Mem K → R (Mem K)

open Classical in
/-- `x / y` -/
noncomputable def cdiv (x y : K) : R K := if y = 0 then .error .nan else .ok (x / y)

/-- `if (prcd) prcd(pdata, q);` -/
def applyPrcd (prcd : Option (Prcd K)) (q : Vec) (m : Mem K) : R (Mem K) :=
  match prcd with
  | some f => f q m
  | none => pure m

/-- krylov.c:162-172 `init_cg(addeval, matrix, b, x, r, p, a)`. -/
def initCg (addeval : AddEval K) (b x r p : Vec) (m : Mem K) : R (Mem K) := do
  let m ← copyVec b r m
  let m ← addeval (-1) x r m
  copyVec r p m

/-- krylov.c:174-195 `step_cg(addeval, matrix, b, x, r, p, a)`. -/
noncomputable def stepCg (addeval : AddEval K) (x r p a : Vec) (m : Mem K) : R (Mem K) := do
  let m ← clearVec a m
  let m ← addeval 1 p a m
  let gamma ← dotprodVec p a m
  let d ← dotprodVec p r m
  let lambda ← cdiv d gamma
  let m ← addVec lambda p x m
  let m ← addVec (-lambda) a r m
  let d ← dotprodVec a r m
  let mu ← cdiv d gamma
  let m ← scaleVec (-mu) p m
  addVec 1 r p m

/-- krylov.c:197-205 `evalfunctional_cg(addeval, matrix, b, x, r)`; the result is the real part of the returned expression. -/
def evalfunctionalCg (b x r : Vec) (m : Mem K) : R K := do
  let d ← dotprodVec r x m
  let e ← dotprodVec b x m
  pure (-(1 / 2) * (d + e))

/-- krylov.c:211-230 `init_pcg(addeval, matrix, prcd, pdata, b, x, r, q, p, a)`. -/
def initPcg (addeval : AddEval K) (prcd : Option (Prcd K)) (b x r q p : Vec) (m : Mem K) : R (Mem K) := do
  let m ← copyVec b r m
  let m ← addeval (-1) x r m
  let m ← copyVec r q m
  let m ← applyPrcd prcd q m
  copyVec q p m

/-- krylov.c:232-262 `step_pcg(addeval, matrix, prcd, pdata, b, x, r, q, p, a)`. -/
noncomputable def stepPcg (addeval : AddEval K) (prcd : Option (Prcd K)) (x r q p a : Vec) (m : Mem K) : R (Mem K) := do
  let m ← clearVec a m
  let m ← addeval 1 p a m
  let gamma ← dotprodVec p a m
  let d ← dotprodVec p r m
  let lambda ← cdiv d gamma
  let m ← addVec lambda p x m
  let m ← addVec (-lambda) a r m
  let m ← copyVec r q m
  let m ← applyPrcd prcd q m
  let d ← dotprodVec a q m
  let mu ← cdiv d gamma
  let m ← scaleVec (-mu) p m
  addVec 1 q p m

/-- krylov.c:268-288 `init_uzawa(solve_A11, matrix_A11, mvm_A21, matrix_A21, b1, b2, x1, x2, r2, p2, a1, s2)`. -/
def initUzawa (solve : Prcd K) (mvm : MvmCb K) (b1 b2 x1 x2 r2 p2 : Vec) (m : Mem K) : R (Mem K) := do
  let m ← copyVec b1 x1 m
  let m ← mvm (-1) true x2 x1 m
  let m ← solve x1 m
  let m ← clearVec r2 m
  let m ← mvm 1 false x1 r2 m
  let m ← addVec (-1) b2 r2 m
  copyVec r2 p2 m

/-- krylov.c:290-330 `step_uzawa(solve_A11, matrix_A11, mvm_A21, matrix_A21, b1, b2, x1, x2, r2, p2, a1, s2)`. -/
noncomputable def stepUzawa (solve : Prcd K) (mvm : MvmCb K) (x1 x2 r2 p2 a1 s2 : Vec) (m : Mem K) : R (Mem K) := do
  let m ← clearVec a1 m
  let m ← mvm 1 true p2 a1 m
  let m ← solve a1 m
  let m ← clearVec s2 m
  let m ← mvm 1 false a1 s2 m
  let gamma ← dotprodVec s2 p2 m
  let d ← dotprodVec p2 r2 m
  let lambda ← cdiv d gamma
  let m ← addVec lambda p2 x2 m
  let m ← addVec (-lambda) s2 r2 m
  let m ← addVec (-lambda) a1 x1 m
  let d ← dotprodVec s2 r2 m
  let mu ← cdiv d (star gamma)
  let m ← scaleVec (-mu) p2 m
  addVec 1 r2 p2 m

/-- krylov.c:336-364 `init_puzawa(solve_A11, matrix_A11, mvm_A21, matrix_A21, prcd, pdata, b1, b2, x1, x2, r2, q2, p2, a1, s2)`. -/
def initPuzawa (solve : Prcd K) (mvm : MvmCb K) (prcd : Option (Prcd K)) (b1 b2 x1 x2 r2 q2 p2 : Vec) (m : Mem K) :
    R (Mem K) := do
  let m ← copyVec b1 x1 m
  let m ← mvm (-1) true x2 x1 m
  let m ← solve x1 m
  let m ← clearVec r2 m
  let m ← mvm 1 false x1 r2 m
  let m ← addVec (-1) b2 r2 m
  let m ← copyVec r2 q2 m
  let m ← applyPrcd prcd q2 m
  copyVec q2 p2 m

/-- krylov.c:366-414 `step_puzawa(solve_A11, matrix_A11, mvm_A21, matrix_A21, prcd, pdata, b1, b2, x1, x2, r2, q2, p2, a1, s2)`. -/
noncomputable def stepPuzawa (solve : Prcd K) (mvm : MvmCb K) (prcd : Option (Prcd K)) (x1 x2 r2 q2 p2 a1 s2 : Vec) (m : Mem K) :
    R (Mem K) := do
  let m ← clearVec a1 m
  let m ← mvm 1 true p2 a1 m
  let m ← solve a1 m
  let m ← clearVec s2 m
  let m ← mvm 1 false a1 s2 m
  let gamma ← dotprodVec s2 p2 m
  let d ← dotprodVec p2 r2 m
  let lambda ← cdiv d gamma
  let m ← addVec lambda p2 x2 m
  let m ← addVec (-lambda) s2 r2 m
  let m ← copyVec r2 q2 m
  let m ← applyPrcd prcd q2 m
  let m ← addVec (-lambda) a1 x1 m
  let d ← dotprodVec s2 q2 m
  let mu ← cdiv d (star gamma)
  let m ← scaleVec (-mu) p2 m
  addVec 1 q2 p2 m

/-- krylov.c:424-444 `init_bicg(addeval, addevaltrans, matrix, b, x, r, rt, p, pt, a, at)`. -/
def initBicg (addeval : AddEval K) (b x r rt p pt : Vec) (m : Mem K) : R (Mem K) := do
  let m ← copyVec b r m
  let m ← addeval (-1) x r m
  let m ← copyVec r rt m
  let m ← copyVec r p m
  copyVec rt pt m

/-- krylov.c:446-482 `step_bicg(addeval, addevaltrans, matrix, b, x, r, rt, p, pt, a, at)`. -/
noncomputable def stepBicg (addeval addevaltrans : AddEval K) (x r rt p pt a at' : Vec) (m : Mem K) : R (Mem K) := do
  let m ← clearVec a m
  let m ← addeval 1 p a m
  let m ← clearVec at' m
  let m ← addevaltrans 1 pt at' m
  let gamma ← dotprodVec a pt m
  let mu ← dotprodVec r rt m
  let alpha ← cdiv mu gamma
  let m ← addVec alpha p x m
  let m ← addVec (-alpha) a r m
  let m ← addVec (-alpha) at' rt m
  let d ← dotprodVec r rt m
  let beta ← cdiv d mu
  let m ← scaleVec beta p m
  let m ← addVec 1 r p m
  let m ← scaleVec beta pt m
  addVec 1 rt pt m

/-- krylov.c:492-509 `init_bicgstab(addeval, matrix, b, x, r, rt, p, a, as)`. -/
def initBicgstab (addeval : AddEval K) (b x r rt p : Vec) (m : Mem K) : R (Mem K) := do
  let m ← copyVec b r m
  let m ← addeval (-1) x r m
  let m ← copyVec r rt m
  copyVec r p m

/-- krylov.c:511-546 `step_bicgstab(addeval, matrix, b, x, r, rt, p, a, as)`. -/
noncomputable def stepBicgstab (addeval : AddEval K) (x r rt p a as' : Vec) (m : Mem K) : R (Mem K) := do
  let m ← clearVec a m
  let m ← addeval 1 p a m
  let mu ← dotprodVec r rt m
  let d ← dotprodVec a rt m
  let alpha ← cdiv mu d
  let m ← addVec (-alpha) a r m
  let m ← clearVec as' m
  let m ← addeval 1 r as' m
  let d ← dotprodVec as' r m
  let e ← dotprodVec as' as' m
  let omega ← cdiv d e
  let m ← addVec alpha p x m
  let m ← addVec omega r x m
  let m ← addVec (-omega) as' r m
  let d ← dotprodVec r rt m
  let d ← cdiv d mu
  let beta ← cdiv (d * alpha) omega
  let m ← scaleVec beta p m
  let m ← addVec 1 r p m
  addVec (-beta * omega) a p m

/-- the caller's loop: `init`, followed by `k` calls of `step` -/
def iterate (init step : Mem K → R (Mem K)) (m : Mem K) : Nat → R (Mem K)
  | 0 => init m
  | k + 1 => iterate init step m k >>= step

end H2.Krylov
