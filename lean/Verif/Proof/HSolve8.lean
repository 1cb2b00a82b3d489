import Verif.Proof.HSolve7
import Verif.Proof.FactorUse

/-! Solving with H-matrix factors in the original numbering of the degrees of freedom. -/

set_option linter.unusedSectionVars false

namespace H2
open Spec Dense
variable {G K : Type} [Field K] [StarRing K]

namespace HMat

theorem gatherN_tot {idx : Arr Nat} {t : CRef G} {v vp : Vec} {m : Mem K} (hp : IsPerm idx t.cl.off vp.dim)
    (hd : v.dim = vp.dim) (hv : v.Valid m) (hvp : vp.Valid m) (hdis : Disj v.Cell vp.Cell) :
    Tot (gatherN idx t vp.dim v vp m) (VecBecomes vp m fun i => v.val m (idx.v (t.cl.off + i))) := by
  unfold gatherN
  refine (forUp_tot (fun k (m' : Mem K) => vp.Valid m' ∧ (∀ i < k, vp.val m' i = v.val m (idx.v (t.cl.off + i))) ∧
    Frame vp.Cell m m') (Nat.zero_le _) ⟨hvp, fun i hi => absurd hi (Nat.not_lt_zero _), fun _ _ => rfl⟩ ?_).mono
    fun m' h => h
  rintro k m1 - hk ⟨h1, h2, h3⟩
  have hlt := hp.2.1 k hk
  rw [Arr.get_ok (by have := hp.1; omega), ok_bind]
  have hvk : v.Valid m1 := Rk.frame_vvalid h3 hdis hv
  obtain ⟨x, ex, er⟩ := Mem.read_some (hvk _ (hd ▸ hlt))
  obtain ⟨z, ez, -⟩ := Mem.read_some (h1 k hk)
  rw [er, ok_bind, Mem.write_ok ez]
  have hx : x = v.val m (idx.v (t.cl.off + k)) := by
    rw [← Rk.frame_vval h3 hdis (hd ▸ hlt)]; unfold Vec.val; rw [ex]; rfl
  refine Tot.pure ⟨fun i hi => ?_, fun i hi => ?_, fun c hc => ?_⟩
  · by_cases e : vp.addr i = vp.addr k
    · rw [e, Mem.upd_same]; rfl
    · rw [Mem.upd_ne e]; exact h1 i hi
  · by_cases e : i = k
    · subst e; unfold Vec.val; rw [Mem.upd_same, hx]; rfl
    · have : vp.addr i ≠ vp.addr k := by simp only [Vec.addr]; omega
      rw [← h2 i (by omega)]
      unfold Vec.val; rw [Mem.upd_ne this]
  · rw [Mem.upd_ne]
    · exact h3 c hc
    · rintro rfl; exact hc (Vec.cell_addr hk)

theorem scatterN_tot {idx : Arr Nat} {t : CRef G} {v vp : Vec} {m : Mem K} (hp : IsPerm idx t.cl.off vp.dim)
    (hd : v.dim = vp.dim) (hv : v.Valid m) (hvp : vp.Valid m) (hdis : Disj vp.Cell v.Cell) :
    Tot (scatterN idx t vp.dim v vp m) fun m' => v.Valid m' ∧
      (∀ i < vp.dim, v.val m' (idx.v (t.cl.off + i)) = vp.val m i) ∧ Frame v.Cell m m' := by
  unfold scatterN
  refine (forUp_tot (fun k (m' : Mem K) => v.Valid m' ∧ (∀ i < k, v.val m' (idx.v (t.cl.off + i)) = vp.val m i) ∧
    Frame v.Cell m m') (Nat.zero_le _) ⟨hv, fun i hi => absurd hi (Nat.not_lt_zero _), fun _ _ => rfl⟩ ?_).mono
    fun m' h => h
  rintro k m1 - hk ⟨h1, h2, h3⟩
  have hlt := hp.2.1 k hk
  rw [Arr.get_ok (by have := hp.1; omega), ok_bind]
  have hvk : vp.Valid m1 := Rk.frame_vvalid h3 hdis hvp
  obtain ⟨x, ex, er⟩ := Mem.read_some (hvk _ hk)
  obtain ⟨z, ez, -⟩ := Mem.read_some (h1 _ (hd ▸ hlt))
  rw [er, ok_bind, Mem.write_ok ez]
  have hx : x = vp.val m k := by
    rw [← Rk.frame_vval h3 hdis hk]; unfold Vec.val; rw [ex]; rfl
  refine Tot.pure ⟨fun i hi => ?_, fun i hi => ?_, fun c hc => ?_⟩
  · by_cases e : v.addr i = v.addr (idx.v (t.cl.off + k))
    · rw [e, Mem.upd_same]; rfl
    · rw [Mem.upd_ne e]; exact h1 i hi
  · by_cases e : i = k
    · subst e; unfold Vec.val; rw [Mem.upd_same, hx]; rfl
    · have : v.addr (idx.v (t.cl.off + i)) ≠ v.addr (idx.v (t.cl.off + k)) := by
        simp only [Vec.addr]
        intro h
        exact e (hp.2.2 i (by omega) k hk (by omega))
      rw [← h2 i (by omega)]
      unfold Vec.val; rw [Mem.upd_ne this]
  · rw [Mem.upd_ne]
    · exact h3 c hc
    · rintro rfl; exact hc (Vec.cell_addr (hd ▸ hlt))

/-- `f` solves the system with the matrix `M` in the permuted numbering. -/
theorem permutedN_tot {idx : Arr Nat} {px : Nat} {junk : Nat → K} {a : HMat G} {f : Vec → Mem K → R (Mem K)} {x : Vec} {m : Mem K}
    (hp : IsPerm idx a.rc.cl.off a.rsize) (hx : x.Valid m) (hd : x.dim = a.rsize) (hfr : Fresh m px x.dim) {M : Nat → Nat → K}
    (hf : ∀ (xp : Vec) (m1 : Mem K), (∀ c, (m c).isSome → m1 c = m c ∧ ¬ xp.Cell c) → xp.Valid m1 → xp.dim = a.rsize →
      Tot (f xp m1) fun m2 => xp.Valid m2 ∧ Frame xp.Cell m1 m2 ∧
        ∀ i < a.rsize, ∑ j ∈ Finset.range a.rsize, M i j * xp.val m2 j = xp.val m1 i) :
    Tot (permutedN idx px junk a f x m) fun m' => ∃ X, VecBecomes x m X m' ∧
      ∀ i < a.rsize, ∑ j ∈ Finset.range a.rsize, M i j * X (idx.v (a.rc.cl.off + j)) = x.val m (idx.v (a.rc.cl.off + i)) := by
  have cellSome : ∀ {v : Vec} {m : Mem K} {c : Nat}, v.Valid m → v.Cell c → (m c).isSome := by
    rintro v m c hv ⟨i, hi, rfl⟩; exact hv i hi
  unfold permutedN
  refine Tot.cassert (decide_eq_true hd) ?_
  simp only [newVec]
  rw [← hd] at hf hp ⊢
  obtain ⟨xp, exp⟩ : ∃ xp : Vec, xp = ⟨px, x.dim⟩ := ⟨_, rfl⟩
  have dxp : xp.dim = x.dim := by rw [exp]
  obtain ⟨m1, em1⟩ : ∃ m1, m1 = m.alloc px x.dim junk := ⟨_, rfl⟩
  rw [← exp, ← em1]
  have old1 : ∀ c, (m c).isSome → m1 c = m c := fun c h => by rw [em1]; exact alloc_old hfr h
  have vc : ∀ {c}, xp.Cell c ↔ px ≤ c ∧ c < px + x.dim := by intro c; rw [exp]; exact vcell_iff
  have xpN : ∀ c, (m c).isSome → ¬ xp.Cell c := by
    intro c h hc
    rw [vc] at hc
    rw [hfr c hc.1 hc.2] at h; exact absurd h (by simp)
  have val1 : ∀ i < x.dim, x.val m1 i = x.val m i := fun i hi => by
    unfold Vec.val; rw [old1 _ (hx i hi)]
  have hv1 : xp.Valid m1 := by rw [exp, em1]; exact alloc_vvalid
  have gt := gatherN_tot (t := a.rc) (v := x) (vp := xp) (m := m1) (idx := idx) (by rw [dxp]; exact hp) dxp.symm
    (fun i hi => by rw [old1 _ (hx i hi)]; exact hx i hi) hv1 fun c hc => xpN c (cellSome hx hc)
  rw [dxp] at gt
  refine Tot.bind gt fun m2 _ h2 => ?_
  have old2 : ∀ c, (m c).isSome → m2 c = m c := fun c h => by rw [h2.2.2 c (xpN c h), old1 c h]
  refine Tot.bind (hf xp m2 (fun c h => ⟨old2 c h, xpN c h⟩) h2.1 dxp) ?_
  rintro m3 - ⟨k1, k2, k3⟩
  have old3 : ∀ c, (m c).isSome → m3 c = m c := fun c h => by rw [k2 c (xpN c h), old2 c h]
  have st := scatterN_tot (t := a.rc) (v := x) (vp := xp) (m := m3) (idx := idx) (by rw [dxp]; exact hp) dxp.symm
    (fun i hi => by rw [old3 _ (hx i hi)]; exact hx i hi) k1 fun c hc h => xpN c (cellSome hx h) hc
  rw [dxp] at st
  refine Tot.bind st ?_
  rintro m4 - ⟨s1, s2, s3⟩
  have nf : ∀ c, (m c).isSome → delVec xp m4 c = m4 c := by
    intro c h
    have b := xpN c h
    rw [vc] at b
    rw [exp]
    simp only [delVec, Mem.free]
    rw [if_neg b]
  refine Tot.pure ⟨x.val m4, ⟨fun i hi => ?_, fun i hi => ?_, fun c hc => ?_⟩, fun i hi => ?_⟩
  · rw [nf _ (hx i hi)]; exact s1 i hi
  · unfold Vec.val; rw [nf _ (hx i hi)]
  · by_cases h : (m c).isSome
    · rw [nf c h, s3 c hc, old3 c h]
    · have hn : m c = none := by simpa using h
      rw [hn, exp]
      simp only [delVec, Mem.free]
      by_cases h1 : px ≤ c ∧ c < px + x.dim
      · rw [if_pos h1]
      · rw [if_neg h1, s3 c hc, k2 c fun h => h1 (vc.mp h), h2.2.2 c fun h => h1 (vc.mp h), em1, Rk.alloc_of_not h1, hn]
  · have e := h2.2.1 i (by rw [dxp]; exact hi)
    beta_reduce at e
    rw [← val1 _ (hp.2.1 i hi), ← e, ← k3 i hi]
    refine Finset.sum_congr rfl fun j hj => ?_
    rw [s2 j (Finset.mem_range.mp hj)]

/-- the solver without permutation, in local numbering -/
theorem triSolveVec_local {lower unit trans : Bool} {a : HMat G} {x : Vec} {m : Mem K} (ho : HOk a) (hs : HSqOk a) (hv : HValid m a)
    (hx : x.Valid m) (hd : Disj (HCell a) x.Cell) (hxd : x.dim = a.rsize)
    (hD : unit = false → ∀ i < a.rsize, place m a (a.rc.cl.off + i) (a.rc.cl.off + i) ≠ 0) :
    Tot (triSolveVec lower unit trans a x m) fun m' => x.Valid m' ∧ Frame x.Cell m m' ∧ ∀ i < a.rsize,
      ∑ j ∈ Finset.range a.rsize, op trans (tri lower unit fun i j => place m a (a.rc.cl.off + i) (a.rc.cl.off + j)) i j * x.val m' j =
        x.val m i := by
  refine (triSolveVec_tot ho hs hv hx hd hxd fun hu r hr => ?_).mono ?_
  · have hr := mem_seg.mp hr
    have := hD hu (r - a.rc.cl.off) (by unfold HMat.rsize; omega)
    rw [show a.rc.cl.off + (r - a.rc.cl.off) = r by omega] at this
    exact this
  · rintro m' ⟨h1, h2, h3⟩
    refine ⟨h1, h2, fun i hi => ?_⟩
    have hi' : i < a.rc.cl.size := hi
    have := h3 (a.rc.cl.off + i) (by rw [mem_seg]; omega)
    rw [sum_seg] at this
    unfold xv at this
    rw [Nat.add_sub_cancel_left] at this
    rw [← this]
    refine Finset.sum_congr rfl fun j _ => ?_
    rw [Nat.add_sub_cancel_left]
    congr 1
    have e := fun i j => HV.tri_shift lower unit (place m a) a.rc.cl.off i j
    unfold op
    rw [e, e]

theorem solve2_tot {a : HMat G} {x : Vec} {m : Mem K} (ho : HOk a) (hs : HSqOk a) (hv : HValid m a)
    (hx : x.Valid m) (hd : Disj (HCell a) x.Cell) (hxd : x.dim = a.rsize) (lower unit trans lower' unit' trans' : Bool)
    (hD : ∀ i < a.rsize, place m a (a.rc.cl.off + i) (a.rc.cl.off + i) ≠ 0) {M : Nat → Nat → K}
    (hM : ∀ r < a.rsize, ∀ c < a.rsize, M r c = ∑ l ∈ Finset.range a.rsize,
      op trans (tri lower unit fun i j => place m a (a.rc.cl.off + i) (a.rc.cl.off + j)) r l *
      op trans' (tri lower' unit' fun i j => place m a (a.rc.cl.off + i) (a.rc.cl.off + j)) l c) :
    Tot (triSolveVec lower unit trans a x m >>= triSolveVec lower' unit' trans' a x) fun m' => x.Valid m' ∧ Frame x.Cell m m' ∧
      ∀ i < a.rsize, ∑ j ∈ Finset.range a.rsize, M i j * x.val m' j = x.val m i := by
  refine Tot.bind (triSolveVec_local ho hs hv hx hd hxd fun _ => hD) ?_
  rintro m1 - ⟨h1, h2, h3⟩
  obtain ⟨f1, f2⟩ := place_frame h2 ho hv hd
  refine (triSolveVec_local ho hs f1 h1 hd hxd fun _ i hi => by rw [f2]; exact hD i hi).mono ?_
  rintro m2 ⟨g1, g2, g3⟩
  simp only [f2] at g3
  exact ⟨g1, fun c hc => (g2 c hc).trans (h2 c hc), compose_systems hM h3 g3⟩

/-! ### the contents of an H-matrix in memory -/

theorem hval_readH {m : Mem K} : ∀ (h : HMat G) (r c : Nat), hval (readH m h) r c = place m h r c := by
  intro h
  induction h with
  | rk t s d x =>
    intro r c
    rw [place_rk']
    simp only [readH, hval, and_assoc]
    rfl
  | full t s d f =>
    intro r c
    rw [place_full']
    simp only [readH, hval, and_assoc]
    rfl
  | super t s d k n son ih =>
    intro r c
    rw [place_super]
    simp only [readH, hval]
    rw [Finset.sum_comm]
    exact Finset.sum_congr rfl fun j _ => Finset.sum_congr rfl fun i _ => ih i j r c

theorem readH_rc {m : Mem K} (h : HMat G) : (readH m h).rc = h.rc ∧ (readH m h).cc = h.cc := by
  cases h <;> exact ⟨rfl, rfl⟩

theorem readH_ok {m : Mem K} : ∀ {h : HMat G}, HVOk (readH m h) → HOk h := by
  intro h
  induction h with
  | rk t s d x => intro ho; exact ⟨ho.2.1, ho.2.2⟩
  | full t s d f => intro ho; exact ho
  | super t s d k n son ih =>
    intro ho
    obtain ⟨h1, h2, ⟨R, C, h3, h4⟩, h5⟩ := ho
    refine ⟨h1, h2, ⟨R, C, fun i j => ?_, h4⟩, fun i j => ih i j (h5 i j)⟩
    have := h3 i j
    rw [(readH_rc _).1, (readH_rc _).2] at this
    exact this

theorem readH_sq {m : Mem K} : ∀ {h : HMat G}, SqOk (readH m h) → HSqOk h := by
  intro h
  induction h with
  | rk t s d x => exact fun h => h
  | full t s d f => exact fun h => h
  | super t s d k n son ih =>
    rintro ⟨h1, h2, h3⟩
    exact ⟨h1, h2, fun i => ih _ _ (h3 i)⟩

end HMat
end H2
