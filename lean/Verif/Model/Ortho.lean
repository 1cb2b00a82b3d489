import Verif.Model.QR
import Verif.Model.FactorTri
import Verif.Model.Harith
import Verif.Model.HMatrix

/-!
# Orthogonalization of cluster bases (`Library/clusterbasis.c`), cluster operators (`Library/clusteroperator.c`)

The matrices of the bases are values.  Every function that factorizes a matrix loads it into a memory of its own, runs the memory-level functions of
`Model/QR`, `Model/Factor` and `Model/FactorTri` there, and takes the results out again.  Windows that share memory with their father
(`init_sub_amatrix`) are modelled by `VMat.sub` and `VMat.glue`.  The lists `rlist` and `clist` of uniform matrices, which have to be empty, are not
represented (see `Model/RefCount`).
-/

namespace H2

/-- clusterbasis.h `struct _clusterbasis` with matrices as values -/
inductive CBV (G 𝕜 : Type) where
  | mk (t : CRef G) (k ktree kbranch : Nat) (V E : VMat 𝕜) (sons : Nat) (son : Fin sons → CBV G 𝕜)

/-- clusteroperator.h `struct _clusteroperator` with matrices as values -/
inductive COp (G 𝕜 : Type) where
  | mk (t : CRef G) (krow kcol : Nat) (C : VMat 𝕜) (sons : Nat) (son : Fin sons → COp G 𝕜)

namespace VMat
variable {𝕜 : Type} [Zero 𝕜]

/-- window of a matrix that is stored at the address `p` without gaps -/
def window (p : Nat) (a : VMat 𝕜) : Mat := ⟨p, a.rows, a.rows, a.cols⟩
/-- amatrix.c:20-37 `init_amatrix` and amatrix.c:484-499 `copy_amatrix(false, a, .)`: a copy of the matrix at the address `p` -/
def load (p : Nat) (a : VMat 𝕜) (m : Mem 𝕜) : Mem 𝕜 :=
  m.alloc p (a.rows * a.cols) fun c => a.e ((c - p) % a.rows) ((c - p) / a.rows)
/-- amatrix.c:484-499 `copy_amatrix(false, a, .)`: the content of a window as a value -/
def fetch (a : Mat) (m : Mem 𝕜) : VMat 𝕜 := ⟨a.rows, a.cols, fun i j => (m (a.addr i j)).getD 0⟩
end VMat

/-- `SIGN1`, `H2_ALMOST_ZERO` and the content of new memory -/
structure QrEnv (𝕜 : Type) where
  sgn : 𝕜 → 𝕜
  tiny : ℝ
  junk : Nat → 𝕜

namespace CBV
variable {G : Type} {𝕜 : Type}

def t : CBV G 𝕜 → CRef G | mk t _ _ _ _ _ _ _ => t
def k : CBV G 𝕜 → Nat | mk _ k _ _ _ _ _ _ => k
def ktree : CBV G 𝕜 → Nat | mk _ _ kt _ _ _ _ _ => kt
def kbranch : CBV G 𝕜 → Nat | mk _ _ _ kb _ _ _ _ => kb
def V : CBV G 𝕜 → VMat 𝕜 | mk _ _ _ _ V _ _ _ => V
def E : CBV G 𝕜 → VMat 𝕜 | mk _ _ _ _ _ E _ _ => E
def sons : CBV G 𝕜 → Nat | mk _ _ _ _ _ _ n _ => n
def son : (cb : CBV G 𝕜) → Fin cb.sons → CBV G 𝕜 | mk _ _ _ _ _ _ _ s => s
/-- the basis with another transfer matrix -/
def setE : CBV G 𝕜 → VMat 𝕜 → CBV G 𝕜 | mk t k kt kb V _ n son, E => mk t k kt kb V E n son

/-- clusterbasis.c:186-208 `update_clusterbasis(cb)`: the new values of `ktree` and `kbranch` -/
def counts (t : CRef G) (k : Nat) {n : Nat} (son : Fin n → CBV G 𝕜) : Nat × Nat :=
  if n = 0 then (t.cl.size + k, t.cl.size + k)
  else (foldFin n (fun i a => a + (son i).ktree) 0 + k, foldFin n (fun i a => if a < (son i).kbranch then (son i).kbranch else a) 0 + k)
end CBV

namespace COp
variable {G : Type} {𝕜 : Type}
def t : COp G 𝕜 → CRef G | mk t _ _ _ _ _ => t
def krow : COp G 𝕜 → Nat | mk _ k _ _ _ _ => k
def kcol : COp G 𝕜 → Nat | mk _ _ k _ _ _ => k
def C : COp G 𝕜 → VMat 𝕜 | mk _ _ _ C _ _ => C
def sons : COp G 𝕜 → Nat | mk _ _ _ _ n _ => n
def son : (co : COp G 𝕜) → Fin co.sons → COp G 𝕜 | mk _ _ _ _ _ s => s

/-- clusterbasis.c:1526 `old2new == 0 || sons == old2new->sons` -/
def fits (co : Option (COp G 𝕜)) (n : Nat) : Bool := match co with | none => true | some co => decide (n = co.sons)
/-- clusterbasis.c:1536 `(old2new ? old2new->son[i] : 0)` -/
def sonOf (co : Option (COp G 𝕜)) (i : Nat) : Option (COp G 𝕜) :=
  match co with | none => none | some co => if h : i < co.sons then some (co.son ⟨i, h⟩) else none
/-- clusteroperator.c:172-183 `resize_clusteroperator(co, krow, kcol)` followed by filling the matrix, and the operators of the sons
after they have been changed -/
def put (co : Option (COp G 𝕜)) (C : VMat 𝕜) {n : Nat} (son : Fin n → Option (COp G 𝕜)) : Option (COp G 𝕜) :=
  match co with
  | none => none
  | some co => some (mk co.t C.rows C.cols C n fun i => (son i).getD co)
end COp

section
variable {𝕜 : Type} [RCLike 𝕜]

/-- clusterbasis.c:1559-1583 and 1617-1648: factorize `Vhat`, replace `E` by `R E`, copy `R`, and expand the factor `Q`; the results are `Q`, `R E`, and `R`. -/
noncomputable def orthoLocal (q : QrEnv 𝕜) (Vhat E : VMat 𝕜) : R (VMat 𝕜 × VMat 𝕜 × VMat 𝕜) := do
  let k := min Vhat.rows Vhat.cols
  let a := Vhat.window 0
  let m := Vhat.load 0 (fun _ => none)
  let (tau, m) ← Dense.qrdecomp q.sgn q.tiny q.junk a ⟨k, q.junk⟩ m
  let Eold ← VMat.copy false E Vhat.cols E.cols
  let p1 := Vhat.rows * Vhat.cols
  let m := Eold.load p1 m
  let e := Eold.window p1
  let a1 ← Dense.initSub a k 0 Vhat.cols 0
  let m ← Dense.trieval false false false a1 false e m
  let e1 ← Dense.initSub e k 0 e.cols 0
  let E' := VMat.fetch e1 m
  let p2 := p1 + Eold.rows * Eold.cols
  let m := m.alloc p2 (k * Vhat.cols) q.junk
  let c : Mat := ⟨p2, k, k, Vhat.cols⟩
  let m ← Dense.copyUpper a false c m
  let C := VMat.fetch c m
  let p3 := p2 + k * Vhat.cols
  let m := m.alloc p3 (Vhat.rows * k) q.junk
  let Q : Mat := ⟨p3, Vhat.rows, Vhat.rows, k⟩
  let m ← Dense.qrexpand a tau Q m
  pure (VMat.fetch Q m, E', C)

/-- clusterbasis.c:1729-1737, 1749-1757, 1839-1844: factorize `Vhat` and copy the triangular factor -/
noncomputable def weightLocal (q : QrEnv 𝕜) (Vhat : VMat 𝕜) : R (VMat 𝕜) := do
  let k := min Vhat.rows Vhat.cols
  let a := Vhat.window 0
  let m := Vhat.load 0 (fun _ => none)
  let (_, m) ← Dense.qrdecomp q.sgn q.tiny q.junk a ⟨k, q.junk⟩ m
  let p1 := Vhat.rows * Vhat.cols
  let m := m.alloc p1 (k * Vhat.cols) q.junk
  let c : Mat := ⟨p1, k, k, Vhat.cols⟩
  let m ← Dense.copyUpper a false c m
  pure (VMat.fetch c m)

/-- clusterbasis.c:1543-1554 (also 1713-1725, 1806-1821): a matrix with `cols` columns whose blocks of rows are computed by `f` (given the uninitialised block) -/
def stack (junk : Nat → 𝕜) {n : Nat} (cols : Nat) (rows : Fin n → Nat) (f : Fin n → VMat 𝕜 → R (VMat 𝕜)) : R (VMat 𝕜) := do
  let m := foldFin n (fun i a => a + rows i) 0
  let (V, off) ← foldFinM n (fun i (st : VMat 𝕜 × Nat) => do
    let w ← st.1.sub (rows i) st.2 cols 0
    let w ← f i w
    pure (st.1.glue st.2 0 w, st.2 + rows i)) (⟨m, cols, fun i j => junk (i + j * m)⟩, 0)
  cassert (decide (off = m))
  pure V

/-- clusterbasis.c:1586-1600: the blocks of rows of `Q` become the new transfer matrices of the sons; `E.cols == cb->k` is ensured by `setrank_clusterbasis` -/
def unstack {G : Type} (Q : VMat 𝕜) {n : Nat} (son : Fin n → CBV G 𝕜) : R (Fin n → CBV G 𝕜) := do
  let m := foldFin n (fun i a => a + (son i).k) 0
  let (son', off) ← foldFinM n (fun i (st : (Fin n → CBV G 𝕜) × Nat) => do
    let w ← Q.sub (son i).k st.2 Q.cols 0
    let w ← VMat.copy false w (son i).k Q.cols
    pure (fun j => if j = i then (st.1 j).setE w else st.1 j, st.2 + (son i).k)) (son, 0)
  cassert (decide (off = m))
  pure son'

namespace CBV
variable {G : Type}

/-- clusterbasis.c:1514-1654 `ortho_clusterbasis(cb, old2new)`, with clusterbasis.c:227-244 `setrank_clusterbasis`: all matrices that are resized there are
overwritten afterwards. -/
noncomputable def ortho (q : QrEnv 𝕜) : CBV G 𝕜 → Option (COp G 𝕜) → R (CBV G 𝕜 × Option (COp G 𝕜))
  | mk t kold _ _ V E n son, old2new => do
    cassert (COp.fits old2new n)
    if 0 < n then do
      let r ← seqFin n (fun i => ortho q (son i) (COp.sonOf old2new i))
      let Vhat ← stack q.junk kold (fun i => (r i).1.k) (fun i w => VMat.copy false (r i).1.E w.rows w.cols)
      let (Q, E, C) ← orthoLocal q Vhat E
      let son' ← unstack Q (fun i => (r i).1)
      let c := counts t Q.cols son'
      pure (mk t Q.cols c.1 c.2 V E n son', COp.put old2new C (fun i => (r i).2))
    else do
      let Vhat ← VMat.copy false V t.cl.size kold
      let (Q, E, C) ← orthoLocal q Vhat E
      let c := counts t Q.cols son
      pure (mk t Q.cols c.1 c.2 Q E n son, COp.put old2new C (fun i : Fin n => COp.sonOf old2new i))

/-- clusterbasis.c:1694-1764 `weight_clusterbasis_clusteroperator(cb, co)` -/
noncomputable def weight (q : QrEnv 𝕜) : CBV G 𝕜 → COp G 𝕜 → R (COp G 𝕜)
  | mk t k _ _ V _ n son, .mk ct _ _ _ cn cson => do
    cassert (decide (n = cn))
    if 0 < n then do
      let r ← seqFin n (fun i => if h : i.1 < cn then weight q (son i) (cson ⟨i, h⟩) else .error .ub)
      let Vhat ← stack q.junk k (fun i => (r i).krow) (fun i w => do
        cassert (decide ((r i).kcol = (son i).E.rows))
        VMat.addmul 1 false (r i).C false (son i).E (VMat.zero w.rows w.cols))
      let C ← weightLocal q Vhat
      pure (.mk ct C.rows C.cols C n r)
    else do
      let Vhat ← VMat.copy false V t.cl.size k
      let C ← weightLocal q Vhat
      pure (.mk ct C.rows C.cols C cn cson)

/-- amatrix.c `normfrob_amatrix(G)` -/
noncomputable def frob (G : VMat 𝕜) : ℝ := √(∑ j ∈ Finset.range G.cols, ∑ i ∈ Finset.range G.rows, ‖G.e i j‖ ^ 2)

/-- clusterbasis.c:1681-1684: `G - I` and its norm -/
noncomputable def offIdent (k : Nat) (G : VMat 𝕜) : ℝ := frob ⟨G.rows, G.cols, fun i j => if i = j ∧ i < k then G.e i j - 1 else G.e i j⟩

open Classical in
/-- clusterbasis.c:1656-1692 `check_ortho_clusterbasis(cb)` -/
noncomputable def checkOrtho : CBV G 𝕜 → R ℝ
  | mk _ k _ _ V _ n son => do
    let (norm, G) ← (if 0 < n then
        foldFinM n (fun i (st : ℝ × VMat 𝕜) => do
          let norm1 ← checkOrtho (son i)
          let G ← VMat.addmul 1 true (son i).E false (son i).E st.2
          pure (if norm1 > st.1 then norm1 else st.1, G)) (0, VMat.zero k k)
      else do
        let G ← VMat.addmul 1 true V false V (VMat.zero k k)
        pure (0, G))
    let norm1 := offIdent k G
    pure (if norm1 > norm then norm1 else norm)

/-- clusterbasis.c:1055-1093 `compress_clusterbasis_amatrix(cb, Xp, Xt)`; the result is the new content of `Xt` -/
def compress : CBV G 𝕜 → (Xp Xt : VMat 𝕜) → R (VMat 𝕜)
  | mk t k _ kbranch V _ n son, Xp, Xt => do
    cassert (decide (t.cl.size ≤ Xp.rows))
    cassert (decide (kbranch ≤ Xt.rows))
    let Xc ← Xt.sub k 0 Xt.cols 0
    let Xt := Xt.glue 0 0 (VMat.zero Xc.rows Xc.cols)
    if 0 < n then do
      let (Xt, xoff) ← foldFinM n (fun i (st : VMat 𝕜 × Nat) =>
        if h : i.1 < t.nsons then do
          let Xp1 ← Xp.sub (t.son ⟨i, h⟩).cl.size st.2 Xp.cols 0
          let Xt1 ← st.1.sub (son i).kbranch k st.1.cols 0
          let Xt1 ← compress (son i) Xp1 Xt1
          let Xt := st.1.glue k 0 Xt1
          let Xt1 ← Xt.sub (son i).k k Xt.cols 0
          let Xc ← Xt.sub k 0 Xt.cols 0
          let Xc ← VMat.addmul 1 true (son i).E false Xt1 Xc
          pure (Xt.glue 0 0 Xc, st.2 + (t.son ⟨i, h⟩).cl.size)
        else .error .ub) (Xt, 0)
      cassert (decide (xoff = t.cl.size))
      pure Xt
    else do
      let Xc ← Xt.sub k 0 Xt.cols 0
      let Xc ← VMat.addmul 1 true V false Xp Xc
      pure (Xt.glue 0 0 Xc)

/-- clusteroperator.c:425-480 `basisproduct_clusteroperator(cb1, cb2, pr)` -/
def basisproduct (junk : Nat → 𝕜) : CBV G 𝕜 → CBV G 𝕜 → COp G 𝕜 → R (COp G 𝕜)
  | mk t1 k1 kt1 kb1 V1 E1 n1 son1, cb2, .mk t _ _ _ n son => do
    cassert (t1.same t)
    cassert (cb2.t.same t)
    if 0 < n then do
      cassert (decide (n1 = n))
      cassert (decide (cb2.sons = n))
      let r ← seqFin n1 (fun i => if h : i.1 < cb2.sons ∧ i.1 < n then basisproduct junk (son1 i) (cb2.son ⟨i, h.1⟩) (son ⟨i, h.2⟩) else .error .ub)
      let C ← foldFinM n1 (fun i (C : VMat 𝕜) => if h : i.1 < cb2.sons then do
          let X ← VMat.addmul 1 false (r i).C false (cb2.son ⟨i, h⟩).E (VMat.zero (son1 i).k cb2.k)
          VMat.addmul 1 true (son1 i).E false X C
        else .error .ub) (VMat.zero k1 cb2.k)
      pure (.mk t k1 cb2.k C n1 r)
    else if n1 = 0 then
      if cb2.sons = 0 then do
        let C ← VMat.addmul 1 true V1 false cb2.V (VMat.zero k1 cb2.k)
        pure (.mk t k1 cb2.k C n son)
      else do
        let Xt ← compress cb2 V1 ⟨cb2.kbranch, k1, fun i j => junk (i + j * cb2.kbranch)⟩
        let X ← Xt.sub cb2.k 0 k1 0
        let C ← VMat.copy true X k1 cb2.k
        pure (.mk t k1 cb2.k C n son)
    else do
      cassert (decide (cb2.sons = 0))
      let Xt ← compress (mk t1 k1 kt1 kb1 V1 E1 n1 son1) cb2.V ⟨kb1, cb2.k, fun i j => junk (i + j * kb1)⟩
      let X ← Xt.sub k1 0 cb2.k 0
      let C ← VMat.copy false X k1 cb2.k
      pure (.mk t k1 cb2.k C n son)

end CBV
end
end H2
