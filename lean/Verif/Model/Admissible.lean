import Verif.Model.Cluster
import Mathlib.Analysis.InnerProductSpace.PiL2

/-! # Admissibility conditions (`block.c:24-101`, `cluster.c:743-818`), over the real numbers -/

namespace H2.Adm

/-- basic.h:184 `REAL_SQR` -/
def sqr (x : ℝ) : ℝ := x * x

/-- cluster.c:744-754 `getdiam_2_cluster(t)`. -/
noncomputable def getdiam2 (t : CInfo ℝ) : ℝ :=
  Real.sqrt (forT 0 t.dim (fun i d => d + sqr (t.bmax i - t.bmin i)) 0)

/-- cluster.c:757-772 `getdist_2_cluster(t, s)`. -/
noncomputable def getdist2 (t s : CInfo ℝ) : R ℝ := do
  cassert (decide (t.dim = s.dim))
  pure (Real.sqrt (forT 0 t.dim (fun i d =>
    if t.bmax i < s.bmin i then d + sqr (s.bmin i - t.bmax i)
    else if s.bmax i < t.bmin i then d + sqr (t.bmin i - s.bmax i)
    else d) 0))

/-- cluster.c:775-790 `getdiam_max_cluster(t)`. -/
noncomputable def getdiamMax (t : CInfo ℝ) : ℝ :=
  forT 0 t.dim (fun i dm => if dm < t.bmax i - t.bmin i then t.bmax i - t.bmin i else dm) 0

/-- cluster.c:793-818 `getdist_max_cluster(t, s)`. -/
noncomputable def getdistMax (t s : CInfo ℝ) : R ℝ := do
  cassert (decide (t.dim = s.dim))
  pure (forT 0 t.dim (fun i dm =>
    if t.bmax i < s.bmin i then (if dm < s.bmin i - t.bmax i then s.bmin i - t.bmax i else dm)
    else if s.bmax i < t.bmin i then (if dm < t.bmin i - s.bmax i then t.bmin i - s.bmax i else dm)
    else dm) 0)

/-- basic.h:308 `REAL_MAX3` -/
noncomputable def max3 (a b c : ℝ) : ℝ := max a (max b c)

/-- block.c:29-49 `admissible_2_cluster(rc, cc, &eta)`.  Reading `cc->bmax[i]` for `i ≥ cc->dim` is out of
bounds. -/
noncomputable def admissible2 (eta : ℝ) (rc cc : CInfo ℝ) : R Bool := do
  if cc.dim < rc.dim then throw .ub
  let st := forT 0 rc.dim (fun i (st : ℝ × ℝ × ℝ) =>
    let a := rc.bmax i - rc.bmin i
    let dt := st.1 + a * a
    let a := cc.bmax i - cc.bmin i
    let ds := st.2.1 + a * a
    let a := max3 0 (rc.bmin i - cc.bmax i) (cc.bmin i - rc.bmax i)
    (dt, ds, st.2.2 + a * a)) (0, 0, 0)
  pure (decide (st.1 ≤ eta * eta * st.2.2) && decide (st.2.1 ≤ eta * eta * st.2.2))

/-- block.c:52-62 `admissible_max_cluster(rc, cc, &eta)`. -/
noncomputable def admissibleMax (eta : ℝ) (rc cc : CInfo ℝ) : R Bool := do
  let dist ← getdistMax rc cc
  pure (decide (getdiamMax rc ≤ eta * dist) && decide (getdiamMax cc ≤ eta * dist))

/-- block.c:65-86 `admissible_sphere_cluster(rc, cc, &eta)`. -/
noncomputable def admissibleSphere (eta : ℝ) (rc cc : CInfo ℝ) : R Bool := do
  cassert (decide (cc.dim = rc.dim))
  let dist := forT 0 rc.dim (fun i d =>
    d + sqr (1 / 2 * ((rc.bmin i + rc.bmax i) - (cc.bmin i + cc.bmax i)))) 0
  let dist := Real.sqrt dist - 1 / 2 * (getdiam2 rc + getdiam2 cc)
  pure (decide (getdiam2 rc ≤ eta * dist) && decide (getdiam2 cc ≤ eta * dist))

/-- block.c:88-99 `admissible_2_min_cluster(rc, cc, &eta)`. -/
noncomputable def admissible2Min (eta : ℝ) (rc cc : CInfo ℝ) : R Bool := do
  let dist ← getdist2 rc cc
  pure (decide (getdiam2 rc ≤ eta * dist) || decide (getdiam2 cc ≤ eta * dist))

end H2.Adm
