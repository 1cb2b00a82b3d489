import Verif.Model.HSolve
import Verif.Model.QR

/-! # Inversion of H-matrices (`harith.c:3604-3676`) on the level of values -/

namespace H2
namespace HV
variable {G : Type} {𝕜 : Type} [RCLike 𝕜]

/-- hmatrix.c:318-341 `clear_hmatrix(hm)`, with `clear_amatrix` and rkmatrix.c:77-83 `setrank_rkmatrix(hm->r, 0)` -/
def clearH : HV G 𝕜 → HV G 𝕜
  | rk t s r => rk t s ⟨.zero r.A.rows 0, .zero r.B.rows 0, 0⟩
  | full t s f => full t s (.zero f.rows f.cols)
  | super t s m n son => super t s m n fun i j => clearH (son i j)

/-- factorizations.c:2938-2967 `qrinvert_amatrix(a)`: the new value of `a` -/
noncomputable def denseInv (sgn : 𝕜 → 𝕜) (tiny : ℝ) (junk junkT : Nat → 𝕜) (a : VMat 𝕜) : R (VMat 𝕜) := do
  let A : Mat := ⟨0, a.rows, a.rows, a.cols⟩
  let m ← Dense.qrinvert sgn tiny (a.rows * a.cols) junk junkT A (loadMem a (.zero 0 0))
  pure ⟨a.rows, a.cols, A.val m⟩

/-- the members `rsons` and `csons` -/
def nrs : HV G 𝕜 → Nat
  | super _ _ m _ _ => m
  | _ => 0
/-- the members `rsons` and `csons` -/
def ncs : HV G 𝕜 → Nat
  | super _ _ _ n _ => n
  | _ => 0

/-- harith.c:3626-3650: elimination step `k`; `inv` is the recursive call for the diagonal block -/
def invForward (T : TruncOps 𝕜) (m k : Nat) {m' n' p' q' : Nat} (inv : HV G 𝕜 → HV G 𝕜 → R (HV G 𝕜 × HV G 𝕜)) (st : (Fin m' → Fin n' → HV G 𝕜) × (Fin p' → Fin q' → HV G 𝕜)) :
    R ((Fin m' → Fin n' → HV G 𝕜) × (Fin p' → Fin q' → HV G 𝕜)) := do
  let akk ← getSon st.1 k k
  let wkk ← getSon st.2 k k
  let (akk, wkk) ← inv akk wkk
  let as ← atSon st.1 k k (fun _ => pure akk)
  let ws ← atSon st.2 k k (fun _ => pure wkk)
  let ws ← forUp (k + 1) m (fun i ws => do
    let aik ← getSon as i k
    atSon ws i k (fun w => addmul T 1 false false aik akk (clearH w))) ws
  let ws ← forUp (k + 1) m (fun j ws => do
    let akj ← getSon as k j
    atSon ws k j (fun w => addmul T 1 false false akk akj (clearH w))) ws
  let as ← forUp (k + 1) m (fun j as => forUp (k + 1) m (fun i as => do
    let wik ← getSon ws i k
    let akj ← getSon as k j
    atSon as i j (addmul T (-1) false false wik akj)) as) as
  pure (as, ws)

/-- harith.c:3654-3673: step `k` of the second loop -/
def invBackward (T : TruncOps 𝕜) (m k : Nat) {m' n' p' q' : Nat} (ws : Fin p' → Fin q' → HV G 𝕜) (as : Fin m' → Fin n' → HV G 𝕜) : R (Fin m' → Fin n' → HV G 𝕜) := do
  let as ← forUp (k + 1) m (fun i as => do
    let as ← atSon as i k (fun z => pure (clearH z))
    forUp (k + 1) m (fun j as => do
      let aij ← getSon as i j
      let wjk ← getSon ws j k
      atSon as i k (addmul T (-1) false false aij wjk)) as) as
  let as ← forUp (k + 1) m (fun j as => do
    let as ← atSon as k j (fun z => pure (clearH z))
    forUp (k + 1) m (fun i as => do
      let wki ← getSon ws k i
      let aij ← getSon as i j
      atSon as k j (addmul T (-1) false false wki aij)) as) as
  forUp (k + 1) m (fun i as => do
    let aki ← getSon as k i
    let wik ← getSon ws i k
    atSon as k k (addmul T (-1) false false aki wik)) as

/-- harith.c:3604-3676 `invert_hmatrix(a, work, tm, eps)`; the first argument is the block structure of `a`; returns the new values of `a` and `work`. -/
noncomputable def invertH (T : TruncOps 𝕜) (sgn : 𝕜 → 𝕜) (tiny : ℝ) (junk junkT : Nat → 𝕜) : HV G 𝕜 → HV G 𝕜 → HV G 𝕜 → R (HV G 𝕜 × HV G 𝕜)
  | full .., a, w => do
    cassert (a.rc.same a.cc)
    cassert (a.rc.same w.rc)
    cassert (a.cc.same w.cc)
    cassert (decide (a.nrs = w.nrs))
    cassert (decide (a.ncs = w.ncs))
    match a with
    | full t s f => do
      let f ← denseInv sgn tiny junk junkT f
      pure (full t s f, w)
    | _ => .error .ub
  | rk .., a, w => do
    cassert (a.rc.same a.cc)
    cassert (a.rc.same w.rc)
    cassert (a.cc.same w.cc)
    cassert (decide (a.nrs = w.nrs))
    cassert (decide (a.ncs = w.ncs))
    .error .assertFail
  | super _ _ sm sn ss, a, w => do
    cassert (a.rc.same a.cc)
    cassert (a.rc.same w.rc)
    cassert (a.cc.same w.cc)
    cassert (decide (a.nrs = w.nrs))
    cassert (decide (a.ncs = w.ncs))
    match a, w with
    | super t s m n as, super t' s' m' n' ws => do
      cassert (decide (m = n))
      let st ← forUp 0 m (fun k st =>
        if h : k < sm ∧ k < sn then invForward T m k (invertH T sgn tiny junk junkT (ss ⟨k, h.1⟩ ⟨k, h.2⟩)) st else .error .ub) (as, ws)
      let as ← forDown (fun k as => invBackward T m k st.2 as) m st.1
      pure (super t s m n as, super t' s' m' n' st.2)
    | _, _ => .error .ub

end HV
end H2
