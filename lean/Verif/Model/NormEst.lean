import Verif.Model.KrylovSolve

/-! # Estimation of spectral norms by vector iterations (`krylov.c:14-156`, `matrixnorms.c`) -/

namespace H2.Krylov
open Dense
variable {𝕜 : Type} [RCLike 𝕜]

/-- avector.c:253-261 `random_avector(v)`; `rnd i` is the `i`-th value delivered by the random generator -/
def randomVec (v : Vec) (rnd : Nat → 𝕜) (m : Mem 𝕜) : R (Mem 𝕜) := forUp 0 v.dim (fun i m => m.write (v.addr i) (rnd i)) m

/-- basic.h:46 `NORM_STEPS` -/
def normSteps : Nat := 20

open Classical in
/-- the loops krylov.c:28-39, 61-74, 98-111, 135-150: the first argument is `NORM_STEPS - i`; `body` are the statements between `scale_avector` and `norm2_avector` -/
noncomputable def normLoop (body : Mem 𝕜 → R (Mem 𝕜)) (x : Vec) : Nat → ℝ → Mem 𝕜 → R (ℝ × Mem 𝕜)
  | 0, norm, m => pure (norm, m)
  | s + 1, norm, m =>
    if norm > 0 then do
      let m ← scaleVec (((1 / norm : ℝ)) : 𝕜) x m
      let m ← body m
      let norm ← norm2Vec x m
      normLoop body x s norm m
    else pure (norm, m)

/-- the common part of the functions in krylov.c:14-156; `nx` and `ny` are the addresses of the new vectors, `junk` are the contents of uninitialised memory -/
noncomputable def normEst (body : Vec → Vec → Mem 𝕜 → R (Mem 𝕜)) (rows cols nx ny : Nat) (junk rnd : Nat → 𝕜) (m : Mem 𝕜) : R (ℝ × Mem 𝕜) := do
  let x : Vec := ⟨nx, cols⟩
  let y : Vec := ⟨ny, rows⟩
  let m := (m.alloc nx cols junk).alloc ny rows junk
  let m ← randomVec x rnd m
  let norm ← norm2Vec x m
  let r ← normLoop (body x y) x normSteps norm m
  let m := (r.2.free ny rows).free nx cols
  pure (Real.sqrt r.1, m)

/-- krylov.c:31-35 -/
def normBody (mvm : MvmCb 𝕜) (x y : Vec) (m : Mem 𝕜) : R (Mem 𝕜) := do
  let m ← clearVec y m
  let m ← mvm 1 false x y m
  let m ← clearVec x m
  mvm 1 true y x m

/-- krylov.c:14-45 `norm2_matrix(mvm, A, rows, cols)` -/
noncomputable def norm2Mat (mvm : MvmCb 𝕜) (rows cols nx ny : Nat) (junk rnd : Nat → 𝕜) (m : Mem 𝕜) : R (ℝ × Mem 𝕜) := normEst (normBody mvm) rows cols nx ny junk rnd m

/-- krylov.c:64-70 -/
def diffBody (mvmA mvmB : MvmCb 𝕜) (x y : Vec) (m : Mem 𝕜) : R (Mem 𝕜) := do
  let m ← clearVec y m
  let m ← mvmA 1 false x y m
  let m ← mvmB (-1) false x y m
  let m ← clearVec x m
  let m ← mvmA 1 true y x m
  mvmB (-1) true y x m

/-- krylov.c:47-81 `norm2diff_matrix(mvmA, A, mvmB, B, rows, cols)` -/
noncomputable def norm2diffMat (mvmA mvmB : MvmCb 𝕜) (rows cols nx ny : Nat) (junk rnd : Nat → 𝕜) (m : Mem 𝕜) : R (ℝ × Mem 𝕜) := normEst (diffBody mvmA mvmB) rows cols nx ny junk rnd m

/-- krylov.c:101-107 -/
def preBody (mvmA : MvmCb 𝕜) (evalB evaltransB : Prcd 𝕜) (x y : Vec) (m : Mem 𝕜) : R (Mem 𝕜) := do
  let m ← copyVec x y m
  let m ← evalB y m
  let m ← mvmA (-1) false x y m
  let m ← copyVec y x m
  let m ← evaltransB x m
  mvmA (-1) true y x m

/-- krylov.c:83-118 `norm2diff_pre_matrix(mvmA, A, evalB, evaltransB, B, rows, cols)` -/
noncomputable def norm2diffPre (mvmA : MvmCb 𝕜) (evalB evaltransB : Prcd 𝕜) (rows cols nx ny : Nat) (junk rnd : Nat → 𝕜) (m : Mem 𝕜) : R (ℝ × Mem 𝕜) :=
  normEst (preBody mvmA evalB evaltransB) rows cols nx ny junk rnd m

/-- krylov.c:138-147 -/
def idBody (mvmA : MvmCb 𝕜) (solveB solvetransB : Prcd 𝕜) (x y : Vec) (m : Mem 𝕜) : R (Mem 𝕜) := do
  let m ← clearVec y m
  let m ← mvmA 1 false x y m
  let m ← solveB y m
  let m ← addVec (-1) x y m
  let m ← clearVec x m
  let m ← addVec (-1) y x m
  let m ← solvetransB y m
  mvmA 1 true y x m

/-- krylov.c:120-156 `norm2diff_id_pre_matrix(mvmA, A, solveB, solvetransB, B, rows, cols)` -/
noncomputable def norm2diffIdPre (mvmA : MvmCb 𝕜) (solveB solvetransB : Prcd 𝕜) (rows cols nx ny : Nat) (junk rnd : Nat → 𝕜) (m : Mem 𝕜) : R (ℝ × Mem 𝕜) :=
  normEst (idBody mvmA solveB solvetransB) rows cols nx ny junk rnd m

/-- amatrix.c:778-783 `norm2_amatrix(A)` -/
noncomputable def norm2Am (a : Mat) (nx ny : Nat) (junk rnd : Nat → 𝕜) (m : Mem 𝕜) : R (ℝ × Mem 𝕜) :=
  norm2Mat (fun alpha trans => mvm alpha trans a) a.rows a.cols nx ny junk rnd m

/-- amatrix.c:854-859 `norm2diff_amatrix(a, b)` -/
noncomputable def norm2diffAm (a b : Mat) (nx ny : Nat) (junk rnd : Nat → 𝕜) (m : Mem 𝕜) : R (ℝ × Mem 𝕜) :=
  norm2diffMat (fun alpha trans => mvm alpha trans a) (fun alpha trans => mvm alpha trans b) a.rows a.cols nx ny junk rnd m

end H2.Krylov
