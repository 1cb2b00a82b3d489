import Verif.Model.Tri2d
import Verif.Model.Sparse
import Mathlib.Analysis.SpecialFunctions.Sqrt

/-!
# Piecewise linear finite elements on triangular meshes (`Library/tri2dp1.c`)

The real build: `field` and `real` are `ℝ`, arithmetic is exact; division by zero is the outcome `Err.nan`.  Functions are given by their values, without the
parameter `fdata`.  Arrays and meshes as in `Model/Tri2d`.
-/

namespace H2.P1
open H2.Tri2d

/-- tri2dp1.h:46-64 `struct _tri2dp1` -/
structure Disc where
  t2 : Mesh ℝ
  isDof : Arr Bool
  idx : Arr Nat
  ndof : Nat
  nfix : Nat

/-- tri2dp1.c:10-42 `new_tri2dp1(t2)`; the allocated memory holds arbitrary values (`jb`, `jn`). -/
def newDisc (jb : Nat → Bool) (jn : Nat → Nat) (m : Mesh ℝ) : R Disc := do
  let isDof ← forUp 0 m.vertices (fun i (a : Arr Bool) => do
    let b ← m.xb.get i
    a.set i (decide (b = 0))) ⟨m.vertices, jb⟩
  let s ← forUp 0 m.vertices (fun i (s : Arr Nat × Nat × Nat) => do
    let b ← isDof.get i
    if b then do
      let a ← s.1.set i s.2.1
      pure (a, s.2.1 + 1, s.2.2)
    else do
      let a ← s.1.set i s.2.2
      pure (a, s.2.1, s.2.2 + 1)) (⟨m.vertices, jn⟩, 0, 0)
  pure ⟨m, isDof, s.1, s.2.1, s.2.2⟩

/-- the array `uint xt[3]` -/
def tup (v : Nat × Nat × Nat) (i : Nat) : Nat := if i = 0 then v.1 else if i = 1 then v.2.1 else v.2.2

/-- tri2dp1.c:69-80 in `build_tri2dp1_sparsematrix` (`fix = false`: two degrees of freedom) and tri2dp1.c:108-123 in `build_tri2dp1_interaction_sparsematrix`
(`fix = true`: a degree of freedom and a fixed vertex, with assertions): the positions for one triangle -/
def addPairs (dc : Disc) (fix : Bool) (xt : Nat → Nat) (sp : Pattern) : R Pattern :=
  forUp 0 3 (fun i sp => do
    let b ← dc.isDof.get (xt i)
    if b then do
      let ii ← dc.idx.get (xt i)
      cassert (!fix || decide (ii < dc.ndof))
      forUp 0 3 (fun j sp => do
        let c ← dc.isDof.get (xt j)
        if c = !fix then do
          let jj ← dc.idx.get (xt j)
          cassert (!fix || decide (jj < dc.nfix))
          sp.addnz ii jj
        else pure sp) sp
    else pure sp) sp

/-- tri2dp1.c:52-89 `build_tri2dp1_sparsematrix(dc)` (`fix = false`) and tri2dp1.c:91-132 `build_tri2dp1_interaction_sparsematrix(dc)` (`fix = true`) -/
def buildMatrix (jc : Nat → Nat) (jx : Nat → ℝ) (dc : Disc) (fix : Bool) : R (Sparse ℝ) := do
  let sp ← Pattern.new dc.ndof (if fix then dc.nfix else dc.ndof)
  let sp ← forUp 0 dc.t2.triangles (fun d sp => do
    let v ← getVertices dc.t2 d
    addPairs dc fix (tup v) sp) sp
  Sparse.newZero jc jx sp

/-- tri2dp1.c:243-248, 323-328, 427-432: the vertices of a triangle, found by the edges 0 and 1 (`e[t[d][1]][1]` is also read if it is not needed) -/
def vertsOf (m : Mesh ℝ) (d : Nat) : R (Nat × Nat × Nat) := do
  let t0 ← m.t.get (3 * d)
  let t1 ← m.t.get (3 * d + 1)
  let a0 ← m.e.get (2 * t0)
  let a1 ← m.e.get (2 * t0 + 1)
  let b0 ← m.e.get (2 * t1)
  let b1 ← m.e.get (2 * t1 + 1)
  pure (a0, a1, if b0 = a0 ∨ b0 = a1 then b1 else b0)

/-- `x[i]` -/
def coord (m : Mesh ℝ) (i : Nat) : R (ℝ × ℝ) := do
  let a ← m.x.get (2 * i)
  let b ← m.x.get (2 * i + 1)
  pure (a, b)

/-- tri2dp1.c:270-281, 345-356 (`fix = false`, added to the system matrix) and tri2dp1.c:284-299, 359-375 (`fix = true`, added to the interaction matrix, with assertions) -/
def addElement (dc : Disc) (fix : Bool) (xt : Nat → Nat) (At : Nat → Nat → ℝ) (A : Sparse ℝ) : R (Sparse ℝ) :=
  forUp 0 3 (fun i A => do
    let b ← dc.isDof.get (xt i)
    if b then do
      let ii ← dc.idx.get (xt i)
      cassert (!fix || decide (ii < dc.ndof))
      forUp 0 3 (fun j (A : Sparse ℝ) => do
        let c ← dc.isDof.get (xt j)
        if c = !fix then do
          let jj ← dc.idx.get (xt j)
          cassert (!fix || decide (jj < dc.nfix))
          let r ← A.addentry ii jj (At i j)
          pure r.1
        else pure A) A
    else pure A) A

/-- `if (Af) ...` -/
def addElementOpt (dc : Disc) (xt : Nat → Nat) (At : Nat → Nat → ℝ) (Af : Option (Sparse ℝ)) : R (Option (Sparse ℝ)) :=
  match Af with
  | none => pure none
  | some A => do
    let A ← addElement dc true xt At A
    pure (some A)

/-- tri2dp1.c:255-262: the array `gr`, the gradients multiplied by the determinant, for the vertices `p`, `q`, `r` -/
def gradOf (p q r : ℝ × ℝ) (i : Nat) : ℝ × ℝ :=
  if i = 0 then (r.2 - q.2, q.1 - r.1) else if i = 1 then (p.2 - r.2, r.1 - p.1) else (q.2 - p.2, p.1 - q.1)

/-- tri2dp1.c:252-268: the element matrix for the Laplace operator -/
noncomputable def elemLaplace (p q r : ℝ × ℝ) : R (Nat → Nat → ℝ) :=
  let det := (p.1 - q.1) * (r.2 - q.2) - (p.2 - q.2) * (r.1 - q.1)
  if det = 0 then .error .nan
  else pure fun i j => ((gradOf p q r i).1 * (gradOf p q r j).1 + (gradOf p q r i).2 * (gradOf p q r j).2) / |det| / 2

/-- tri2dp1.c:332-343: the element mass matrix -/
noncomputable def elemMass (p q r : ℝ × ℝ) : R (Nat → Nat → ℝ) :=
  let det := (q.1 - p.1) * (r.2 - p.2) - (q.2 - p.2) * (r.1 - p.1)
  pure fun i j => if i = j then |det| / 12 else |det| / 24

/-- tri2dp1.c:223-302 `assemble_tri2dp1_laplace_sparsematrix(dc, A, Af)` (`elem = elemLaplace`) and tri2dp1.c:304-378 `assemble_tri2dp1_mass_sparsematrix(dc, M, Mf)` (`elem = elemMass`) -/
def assemble (elem : ℝ × ℝ → ℝ × ℝ → ℝ × ℝ → R (Nat → Nat → ℝ)) (dc : Disc) (A : Sparse ℝ) (Af : Option (Sparse ℝ)) : R (Sparse ℝ × Option (Sparse ℝ)) :=
  forUp 0 dc.t2.triangles (fun d (s : Sparse ℝ × Option (Sparse ℝ)) => do
    let v ← vertsOf dc.t2 d
    cassert (decide (v.1 ≠ v.2.1 ∧ v.1 ≠ v.2.2 ∧ v.2.1 ≠ v.2.2))
    let p ← coord dc.t2 v.1
    let q ← coord dc.t2 v.2.1
    let r ← coord dc.t2 v.2.2
    let At ← elem p q r
    let A ← addElement dc false (tup v) At s.1
    let Af ← addElementOpt dc (tup v) At s.2
    pure (A, Af)) (A, Af)

/-- tri2dp1.c:223-302 `assemble_tri2dp1_laplace_sparsematrix(dc, A, Af)` -/
noncomputable def laplace (dc : Disc) (A : Sparse ℝ) (Af : Option (Sparse ℝ)) : R (Sparse ℝ × Option (Sparse ℝ)) := assemble elemLaplace dc A Af

/-- tri2dp1.c:304-378 `assemble_tri2dp1_mass_sparsematrix(dc, M, Mf)` -/
noncomputable def mass (dc : Disc) (A : Sparse ℝ) (Af : Option (Sparse ℝ)) : R (Sparse ℝ × Option (Sparse ℝ)) := assemble elemMass dc A Af

/-- tri2dp1.c:380-402 `assemble_tri2dp1_dirichlet_avector(dc, d, fdata, dv)` -/
def dirichlet (dc : Disc) (g : Option (ℝ × ℝ → ℝ)) (dv : Arr ℝ) : R (Arr ℝ) := do
  cassert (decide (dv.n = dc.nfix))
  forUp 0 dc.t2.vertices (fun i (dv : Arr ℝ) => do
    let b ← dc.isDof.get i
    if !b then do
      let ii ← dc.idx.get i
      cassert (decide (ii < dc.nfix))
      let x ← coord dc.t2 i
      dv.set ii (match g with | none => 0 | some g => g x)
    else pure dv) dv

/-- midpoint of two points, tri2dp1.c:450-457 -/
noncomputable def midp (p q : ℝ × ℝ) : ℝ × ℝ := (1 / 2 * (p.1 + q.1), 1 / 2 * (p.2 + q.2))

/-- tri2dp1.c:461-475: one of the three updates -/
def addLoad (dc : Disc) (v : Nat) (x : ℝ) (fv : Arr ℝ) : R (Arr ℝ) := do
  let b ← dc.isDof.get v
  if b then do
    let ii ← dc.idx.get v
    cassert (decide (ii < dc.ndof))
    let y ← fv.get ii
    fv.set ii (y + x)
  else pure fv

/-- tri2dp1.c:404-477 `assemble_tri2dp1_functional_avector(dc, f, fdata, fv)` -/
noncomputable def functional (dc : Disc) (f : ℝ × ℝ → ℝ) (fv : Arr ℝ) : R (Arr ℝ) := do
  cassert (decide (fv.n = dc.ndof))
  let fv ← forUp 0 fv.n (fun i (a : Arr ℝ) => a.set i 0) fv
  forUp 0 dc.t2.triangles (fun d (fv : Arr ℝ) => do
    let v ← vertsOf dc.t2 d
    let p ← coord dc.t2 v.1
    let q ← coord dc.t2 v.2.1
    let r ← coord dc.t2 v.2.2
    let vol := |(q.1 - p.1) * (r.2 - p.2) - (q.2 - p.2) * (r.1 - p.1)|
    let f01 := f (midp p q)
    let f02 := f (midp p r)
    let f12 := f (midp q r)
    let fv ← addLoad dc v.1 (1 / 2 * (f01 + f02) * vol / 6) fv
    let fv ← addLoad dc v.2.1 (1 / 2 * (f01 + f12) * vol / 6) fv
    addLoad dc v.2.2 (1 / 2 * (f02 + f12) * vol / 6) fv) fv

/-- tri2dp1.c:479-506 `normmax_tri2dp1(dc, u, fdata, xs)` -/
noncomputable def normmax (dc : Disc) (u : ℝ × ℝ → ℝ) (xs : Arr ℝ) : R ℝ := do
  cassert (decide (xs.n = dc.ndof))
  forUp 0 dc.t2.vertices (fun i (norm : ℝ) => do
    let b ← dc.isDof.get i
    if b then do
      let ii ← dc.idx.get i
      cassert (decide (ii < dc.ndof))
      let x ← coord dc.t2 i
      let y ← xs.get ii
      let val := |u x - y|
      pure (if val > norm then val else norm)
    else pure norm) 0

/-- tri2dp1.c:551-567, 574-590: half of the value in the vertex `i` (the null pointer stands for the zero vector) -/
noncomputable def half (dc : Disc) (b bf : Option (Arr ℝ)) (i : Nat) : R ℝ := do
  let s ← dc.isDof.get i
  match (if s then b else bf) with
  | none => pure 0
  | some a => do
    let ii ← dc.idx.get i
    cassert (decide (ii < if s then dc.ndof else dc.nfix))
    let y ← a.get ii
    pure (1 / 2 * y)

/-- the assertions on the dimensions, tri2dp1.c:526-527 -/
def dimOk (b : Option (Arr ℝ)) (n : Nat) : Bool := match b with | none => true | some a => decide (a.n = n)

/-- tri2dp1.c:508-607 `norml2_tri2dp1(dc, f, fdata, b, bf)` -/
noncomputable def norml2 (dc : Disc) (f : Option (ℝ × ℝ → ℝ)) (b bf : Option (Arr ℝ)) : R ℝ := do
  cassert (dimOk b dc.ndof)
  cassert (dimOk bf dc.nfix)
  let norm ← forUp 0 dc.t2.triangles (fun k (norm : ℝ) => do
    let v ← getVertices dc.t2 k
    let p ← coord dc.t2 v.1
    let q ← coord dc.t2 v.2.1
    let r ← coord dc.t2 v.2.2
    let area := |(q.1 - p.1) * (r.2 - p.2) - (q.2 - p.2) * (r.1 - p.1)| * (1 / 2)
    let tnorm ← forUp 0 3 (fun j (tnorm : ℝ) => do
      let e ← dc.t2.t.get (3 * k + j)
      let i0 ← dc.t2.e.get (2 * e)
      let v0 ← half dc b bf i0
      let x0 ← coord dc.t2 i0
      let i1 ← dc.t2.e.get (2 * e + 1)
      let v1 ← half dc b bf i1
      let x1 ← coord dc.t2 i1
      let val := v0 + v1 - (match f with | none => 0 | some f => f (1 / 2 * x0.1 + 1 / 2 * x1.1, 1 / 2 * x0.2 + 1 / 2 * x1.2))
      pure (tnorm + val ^ 2)) 0
    pure (norm + tnorm * area / 3)) 0
  pure √norm

/-- tri2dp1.c:155-178: the entries for a vertex of the fine mesh: pairs of a vertex of the coarse mesh and a weight.  `xt` is the type of its father, `xf` the number of its father;
`none` is the error exit for other types, after which the function returns `0`. -/
noncomputable def fathersOf (e : Arr Nat) (xt xf : Nat) : R (Option (List (Nat × ℝ))) :=
  if xt = 0 then pure (some [(xf, 1)])
  else if xt = 1 then do
    let j0 ← e.get (2 * xf)
    let j1 ← e.get (2 * xf + 1)
    pure (some [(j0, 1 / 2), (j1, 1 / 2)])
  else pure none

/-- tri2dp1.c:152-182, 188-218: one of the two loops; `act ii jj w` is the action for an entry.  The result is `none` after the error exit. -/
noncomputable def prolongLoop {S : Type} (dfine dcoarse : Disc) (rf : Ref) (act : Nat → Nat → ℝ → S → R S) (s : S) : R (Option S) :=
  forUp 0 dfine.t2.vertices (fun i (s : Option S) =>
    match s with
    | none => pure none
    | some s => do
      let b ← dfine.isDof.get i
      if b then do
        let ii ← dfine.idx.get i
        let t ← rf.xt.get i
        let xf ← rf.xf.get i
        let l ← fathersOf dcoarse.t2.e t xf
        match l with
        | none => pure none
        | some l => do
          let s ← l.foldlM (fun s jw => do
            let c ← dcoarse.isDof.get jw.1
            if c then do
              let jj ← dcoarse.idx.get jw.1
              act ii jj jw.2 s
            else pure s) s
          pure (some s)
      else pure (some s)) (some s)

/-- tri2dp1.c:134-221 `build_tri2dp1_prolongation_sparsematrix(dfine, dcoarse, rf)` -/
noncomputable def prolongation (jc : Nat → Nat) (jx : Nat → ℝ) (dfine dcoarse : Disc) (rf : Ref) : R (Option (Sparse ℝ)) := do
  let sp ← Pattern.new dfine.ndof dcoarse.ndof
  let sp ← prolongLoop dfine dcoarse rf (fun ii jj _ (sp : Pattern) => sp.addnz ii jj) sp
  match sp with
  | none => pure none
  | some sp => do
    let P ← Sparse.newZero jc jx sp
    prolongLoop dfine dcoarse rf (fun ii jj w (P : Sparse ℝ) => do
      let r ← P.addentry ii jj w
      pure r.1) P

end H2.P1
