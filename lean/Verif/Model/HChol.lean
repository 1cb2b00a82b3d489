import Verif.Model.HSolve
import Verif.Model.FactorChol

/-!
# Cholesky decomposition of H-matrices (`Library/harith.c`)

Values and conventions as in `Model/Harith` and `Model/HSolve`.  The functions `add_lower_*` and `addmul_lower_hmatrix` update the
lower triangular part of a matrix whose row and column clusters coincide; what happens to the strictly upper triangular part is not
specified by the library.
-/

namespace H2
namespace HV
variable {G K : Type} [Field K] [StarRing K]

/-- harith.c:1044-1116 `add_lower_amatrix_hmatrix(alpha, atrans, a, tm, eps, b)`. -/
def addLowerAmH (T : TruncOps K) (alpha : K) (atrans : Bool) : VMat K → HV G K → R (HV G K)
  | _, rk t s _ => do
    cassert (t.same s)
    .error .assertFail
  | a, full t s f => do
    cassert (t.same s)
    let f ← VMat.add alpha atrans a f
    pure (full t s f)
  | a, super t s rsons csons son => do
    cassert (t.same s)
    cassert (decide (rsons = csons))
    let (son', coff) ← foldFinM csons (fun j (st : (Fin rsons → Fin csons → HV G K) × Nat) =>
      if h : 0 < rsons then do
        let (son', roff) ← foldFinM rsons (fun i (st' : (Fin rsons → Fin csons → HV G K) × Nat) =>
          if i.1 < j.1 then pure (st'.1, st'.2 + (son i j).rsize)
          else do
            let a1 ← (if atrans then a.sub (son i j).csize st.2 (son i j).rsize st'.2
              else a.sub (son i j).rsize st'.2 (son i j).csize st.2)
            let b1 ← (if i.1 = j.1 then addLowerAmH T alpha atrans a1 (son i j) else addAmH T alpha atrans a1 (son i j))
            pure (setSon st'.1 i j b1, st'.2 + (son i j).rsize)) (st.1, 0)
        cassert (decide (roff = t.cl.size))
        pure (son', st.2 + (son ⟨0, h⟩ j).csize)
      else .error .ub) (son, 0)
    cassert (decide (coff = s.cl.size))
    pure (super t s rsons csons son')

/-- harith.c:1168-1233 `add_lower_rkmatrix_hmatrix(alpha, a, tm, eps, b)`. -/
def addLowerRkH (T : TruncOps K) (alpha : K) : VRk K → HV G K → R (HV G K)
  | _, rk t s _ => do
    cassert (t.same s)
    .error .assertFail
  | r, full t s f => do
    cassert (t.same s)
    let f ← addRkAm alpha false r f
    pure (full t s f)
  | r, super t s rsons csons son => do
    cassert (t.same s)
    cassert (decide (rsons = csons))
    let (son', coff) ← foldFinM csons (fun j (st : (Fin rsons → Fin csons → HV G K) × Nat) =>
      if h : 0 < rsons then do
        let (son', roff) ← foldFinM rsons (fun i (st' : (Fin rsons → Fin csons → HV G K) × Nat) =>
          if i.1 < j.1 then pure (st'.1, st'.2 + (son i j).rsize)
          else do
            let r1 ← r.sub (son i j).rsize st'.2 (son i j).csize st.2
            let b1 ← (if i.1 = j.1 then addLowerRkH T alpha r1 (son i j) else addRkH T alpha r1 (son i j))
            pure (setSon st'.1 i j b1, st'.2 + (son i j).rsize)) (st.1, 0)
        cassert (decide (roff = t.cl.size))
        pure (son', st.2 + (son ⟨0, h⟩ j).csize)
      else .error .ub) (son, 0)
    cassert (decide (coff = s.cl.size))
    pure (super t s rsons csons son')

/-- harith.c:3353-3398, the case `x->f` of `addmul_lower_hmatrix`. -/
def addmulLowerXf (T : TruncOps K) (alpha : K) (xt : Bool) (xf : VMat K) (yt : Bool) (y z : HV G K) : R (HV G K) :=
  if xf.orows xt ≤ xf.ocols xt then do
    let M ← addmulHAA 1 (!yt) y (!xt) xf true (.zero (xf.orows xt) (y.occ yt).cl.size)
    addLowerAmH T alpha false M z
  else do
    let A ← xf.copy xt (xf.orows xt) (xf.ocols xt)
    let B ← addHAm 1 (!yt) y (.zero (y.occ yt).cl.size (xf.ocols xt))
    addLowerRkH T alpha ⟨A, B, xf.ocols xt⟩ z

/-- harith.c:3399-3444, the case `y->f` of `addmul_lower_hmatrix`. -/
def addmulLowerYf (T : TruncOps K) (alpha : K) (xt : Bool) (x : HV G K) (yt : Bool) (yf : VMat K) (z : HV G K) : R (HV G K) :=
  if yf.ocols yt ≤ yf.orows yt then do
    let M ← addmulHAA 1 xt x yt yf false (.zero (x.orc xt).cl.size (yf.ocols yt))
    addLowerAmH T alpha false M z
  else do
    let A ← addHAm 1 xt x (.zero (x.orc xt).cl.size (yf.orows yt))
    let B ← yf.copy (!yt) (yf.ocols yt) (yf.orows yt)
    addLowerRkH T alpha ⟨A, B, yf.orows yt⟩ z

/-- harith.c:3445-3471, the case `x->r` of `addmul_lower_hmatrix`. -/
def addmulLowerXr (T : TruncOps K) (alpha : K) (xt : Bool) (t s : CRef G) (xr : VRk K) (yt : Bool) (y z : HV G K) :
    R (HV G K) := do
  let A ← (if xt then xr.B else xr.A).copy false (if xt then s.cl.size else t.cl.size) xr.k
  let B ← addmulHAA 1 (!yt) y false (if xt then xr.A else xr.B) false (.zero (y.occ yt).cl.size xr.k)
  addLowerRkH T alpha ⟨A, B, xr.k⟩ z

/-- harith.c:3472-3498, the case `y->r` of `addmul_lower_hmatrix`. -/
def addmulLowerYr (T : TruncOps K) (alpha : K) (xt : Bool) (x : HV G K) (yt : Bool) (t s : CRef G) (yr : VRk K) (z : HV G K) :
    R (HV G K) := do
  let A ← addmulHAA 1 xt x false (if yt then yr.B else yr.A) false (.zero (x.orc xt).cl.size yr.k)
  let B ← (if yt then yr.A else yr.B).copy false (if yt then t.cl.size else s.cl.size) yr.k
  addLowerRkH T alpha ⟨A, B, yr.k⟩ z

/-- `son[q]` in an array of `m * n` pointers -/
def getFlat {m n : Nat} (son : Fin m → Fin n → HV G K) (q : Nat) : R (HV G K) :=
  if h : q % m < m ∧ q / m < n then .ok (son ⟨q % m, h.1⟩ ⟨q / m, h.2⟩) else .error .ub

/-- The loops harith.c:3524-3535 (`xtrans && ytrans`), 3543-3554 (`xtrans && !ytrans`), 3565-3576 (`!xtrans && ytrans`),
3584-3595 (neither): `off i j k` and `diag i k` are the calls of `addmul_hmatrix` and `addmul_lower_hmatrix`. -/
def lowerLoops {m n : Nat} (off : Nat → Nat → Nat → HV G K → R (HV G K)) (diag : Nat → Nat → HV G K → R (HV G K))
    (sons msons : Nat) (zs : Fin m → Fin n → HV G K) : R (Fin m → Fin n → HV G K) :=
  forUp 0 sons (fun i zs => do
    let zs ← forUp 0 i (fun j zs => forUp 0 msons (fun k zs => atSon zs i j (off i j k)) zs) zs
    forUp 0 msons (fun k zs => atSon zs i i (diag i k)) zs) zs

/-- harith.c:3339-3598 `addmul_lower_hmatrix(alpha, xtrans, x, ytrans, y, tm, eps, z)`.  In the case `xtrans && !ytrans` the calls of
`addmul_hmatrix` use `y->son[j + k * y->rsons]` (harith.c:3547) although the block in row `k` and column `j` is needed. -/
def addmulLower (T : TruncOps K) (alpha : K) (xt yt : Bool) : HV G K → HV G K → HV G K → R (HV G K)
  | full _ _ xf, y, z => do
    cassert (z.rc.same z.cc)
    addmulLowerXf T alpha xt xf yt y z
  | rk xr xc r, y, z => do
    cassert (z.rc.same z.cc)
    match y with
    | full _ _ yf => addmulLowerYf T alpha xt (rk xr xc r) yt yf z
    | y => addmulLowerXr T alpha xt xr xc r yt y z
  | super xr xc xm xn xs, y, z => do
    cassert (z.rc.same z.cc)
    match y with
    | full _ _ yf => addmulLowerYf T alpha xt (super xr xc xm xn xs) yt yf z
    | rk yr yc r => addmulLowerYr T alpha xt (super xr xc xm xn xs) yt yr yc r z
    | super yr yc ym yn ys =>
      let loops : {m n : Nat} → (Fin m → Fin n → HV G K) → R (Fin m → Fin n → HV G K) := fun {m n} zs => do
        cassert (decide (m = n))
        cassert (decide ((if xt then xn else xm) = m))
        cassert (decide ((if xt then xm else xn) = (if yt then yn else ym)))
        cassert (decide ((if yt then ym else yn) = n))
        lowerLoops
          (fun i j k z1 => do
            let xik ← getSon xs (if xt then k else i) (if xt then i else k)
            let ykj ← (if xt && !yt then getFlat ys (j + k * ym) else getSon ys (if yt then j else k) (if yt then k else j))
            addmul T alpha xt yt xik ykj z1)
          (fun i k z1 =>
            if hx : (if xt then k else i) < xm ∧ (if xt then i else k) < xn then do
              let yki ← getSon ys (if yt then i else k) (if yt then k else i)
              addmulLower T alpha xt yt (xs ⟨_, hx.1⟩ ⟨_, hx.2⟩) yki z1
            else .error .ub)
          m (if xt then xm else xn) zs
      match z with
      | super t s m n zs => do
        let zs ← loops zs
        pure (super t s m n zs)
      | full t s zf => do
        let x0 ← getSon xs 0 0
        let y0 ← getSon ys 0 0
        let rdiv := !(x0.orc xt).same (if xt then xc else xr)
        let cdiv := !(y0.occ yt).same (if yt then yr else yc)
        let ztmp ← splitAm zf t s rdiv cdiv
        match ztmp with
        | super _ _ _ _ zs => do
          let zs ← loops zs
          pure (full t s (unsplitAm rdiv cdiv t s zs zf))
        | _ => .error .ub
      | rk .. => .error .assertFail

variable {𝕜 : Type} [RCLike 𝕜]

/-- harith.c:6279-6280: `res = choldecomp_amatrix(a->f); assert(res == 0);`. -/
noncomputable def denseChol (a : VMat 𝕜) : R (VMat 𝕜) := do
  let A : Mat := ⟨0, a.rows, a.rows, a.cols⟩
  let (res, m) ← Dense.choldecomp A (loadMem a (.zero 0 0))
  cassert (decide (res = 0))
  pure ⟨a.rows, a.cols, A.val m⟩

/-- harith.c:6269-6305 `choldecomp_hmatrix(a, tm, eps)`.  `shape` is a matrix with the structure of `a` (for the recursion in Lean
only; the structure does not change). -/
noncomputable def choldecompH (T : TruncOps 𝕜) : HV G 𝕜 → HV G 𝕜 → R (HV G 𝕜)
  | full .., a => do
    cassert (a.rc.same a.cc)
    match a with
    | full t s f => do
      let f ← denseChol f
      pure (full t s f)
    | _ => .error .ub
  | rk .., a => do
    cassert (a.rc.same a.cc)
    .error .assertFail
  | super _ _ sm sn ss, a => do
    cassert (a.rc.same a.cc)
    match a with
    | super t s m n as => do
      cassert (decide (m = n))
      let as ← forUp 0 m (fun k as =>
        if h : k < sm ∧ k < sn then do
          let as ← atSon as k k (choldecompH T (ss ⟨k, h.1⟩ ⟨k, h.2⟩))
          let akk ← getSon as k k
          let as ← forUp (k + 1) m (fun i as => atSon as i k (fun x => triSolveH T true false false true x akk x)) as
          forUp (k + 1) m (fun j as => do
            let ajk ← getSon as j k
            let as ← atSon as j j (addmulLower T (-1) false true ajk ajk)
            forUp (j + 1) m (fun i as => do
              let aik ← getSon as i k
              let ajk ← getSon as j k
              atSon as i j (addmul T (-1) false true aik ajk)) as) as
        else .error .ub) as
      pure (super t s m n as)
    | _ => .error .ub

end HV
end H2
