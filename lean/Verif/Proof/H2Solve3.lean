import Verif.Proof.H2Solve2

/-! Solving with H2-matrix factors in the original numbering of the degrees of freedom. -/

set_option linter.unusedSectionVars false

namespace H2
open Spec Dense

namespace H2Mat
open VSt CBas
variable {G : Type} {K : Type} [Field K] [StarRing K]

/-- the solver without permutation, in local numbering -/
theorem triSolveVec_local {alloc : Mem K → Nat → Nat} {junk : Nat → K} (hal : FreshAlloc alloc) {lower unit trans : Bool} {a : H2Mat G}
    {x : Vec} {s : VSt K} (hb : FiniteMem s.mem) (hr : H2Ready s.mem a) (hs : H2SqOk a) (hx : x.Valid s.mem) (ha : H2Apart a x)
    (hxd : x.dim = a.rb.size) (hD : unit = false → ∀ i < a.rb.size, h2entry s.mem a i i ≠ 0) :
    Tot (triSolveVec alloc junk lower unit trans a x s) fun s' => s'.act = s.act ∧ x.Valid s'.mem ∧ Frame x.Cell s.mem s'.mem ∧
      ∀ i < a.rb.size, ∑ j ∈ Finset.range a.rb.size, op trans (tri lower unit (h2entry s.mem a)) i j * x.val s'.mem j =
        x.val s.mem i := by
  have ee : h2entry s.mem a = fun i j => h2place s.mem a (a.rb.t.cl.off + i) (a.rb.t.cl.off + j) := by
    funext i j; unfold h2entry; rw [← sq_eq hs]
  rw [ee] at hD ⊢
  refine (triSolveVec_tot (lower := lower) (trans := trans) (unit := unit) hal hb hr hs hx ha hxd fun hu r hr => ?_).mono ?_
  · have hr := mem_seg.mp hr
    have := hD hu (r - a.rb.t.cl.off) (by unfold CBas.size; omega)
    beta_reduce at this
    rw [show a.rb.t.cl.off + (r - a.rb.t.cl.off) = r by omega] at this
    exact this
  · rintro s' ⟨h0, h1, h2, h3⟩
    refine ⟨h0, h1, h2, fun i hi => ?_⟩
    have hi' : i < a.rb.t.cl.size := hi
    have := h3 (a.rb.t.cl.off + i) (by rw [mem_seg]; omega)
    rw [sum_seg] at this
    unfold HMat.xv at this
    rw [Nat.add_sub_cancel_left] at this
    rw [← this]
    refine Finset.sum_congr rfl fun j _ => ?_
    rw [Nat.add_sub_cancel_left]
    congr 1
    have e := fun i j => HV.tri_shift lower unit (h2place s.mem a) a.rb.t.cl.off i j
    unfold op
    rw [e, e]

/-- two solvers, one after the other -/
theorem solve2_tot {alloc : Mem K → Nat → Nat} {junk : Nat → K} (hal : FreshAlloc alloc) {a b : H2Mat G} {x : Vec} {s : VSt K} {n : Nat}
    (hb : FiniteMem s.mem) (ra : H2Ready s.mem a) (rb : H2Ready s.mem b) (sa : H2SqOk a) (sb : H2SqOk b) (hx : x.Valid s.mem)
    (pa : H2Apart a x) (pb : H2Apart b x) (hxd : x.dim = n) (na : a.rb.size = n) (nb : b.rb.size = n)
    (lower unit trans lower' unit' trans' : Bool) (hDa : unit = false → ∀ i < n, h2entry s.mem a i i ≠ 0)
    (hDb : unit' = false → ∀ i < n, h2entry s.mem b i i ≠ 0) :
    Tot (triSolveVec alloc junk lower unit trans a x s >>= triSolveVec alloc junk lower' unit' trans' b x) fun s' => s'.act = s.act ∧
      x.Valid s'.mem ∧ Frame x.Cell s.mem s'.mem ∧ ∀ i < n, ∑ j ∈ Finset.range n, (∑ l ∈ Finset.range n,
        op trans (tri lower unit (h2entry s.mem a)) i l * op trans' (tri lower' unit' (h2entry s.mem b)) l j) * x.val s'.mem j =
          x.val s.mem i := by
  subst hxd
  rw [← na] at hDa
  have h := triSolveVec_local (junk := junk) hal (lower := lower) (trans := trans) hb ra sa hx pa na.symm hDa
  rw [na] at h
  refine Tot.bind h ?_
  rintro s1 - ⟨h0, h1, h2, h3⟩
  obtain ⟨f1, f2⟩ := ready_frame rb pb.1 pb.2.1 pb.2.2 h2
  have fe : h2entry s1.mem b = h2entry s.mem b := by funext i j; exact f2 _ _
  rw [← nb] at hDb
  have h := triSolveVec_local (junk := junk) (unit := unit') hal (lower := lower') (trans := trans') (bounded_frame hb h2) f1 sb h1 pb
    nb.symm (by rw [fe]; exact hDb)
  rw [nb, fe] at h
  refine h.mono ?_
  rintro s2 ⟨g0, g1, g2, g3⟩
  exact ⟨g0.trans h0, g1, fun c hc => (g2 c hc).trans (h2 c hc), compose_systems (fun _ _ _ _ => rfl) h3 g3⟩

/-- permute, solve, permute back -/
theorem permV_tot {lidx ridx : Arr Nat} {alloc : Mem K → Nat → Nat} {junk : Nat → K} (hal : FreshAlloc alloc) {lt rt : CRef G}
    {f : Vec → VSt K → R (VSt K)} {x : Vec} {s : VSt K} (hb : FiniteMem s.mem) (hl : IsPerm lidx lt.cl.off x.dim)
    (hr : IsPerm ridx rt.cl.off x.dim) (hx : x.Valid s.mem) {M : Nat → Nat → K}
    (hf : ∀ (xp : Vec) (m1 : Mem K) (a : Nat), (∀ c, (s.mem c).isSome → m1 c = s.mem c ∧ ¬ xp.Cell c) → FiniteMem m1 → xp.Valid m1 →
      xp.dim = x.dim → Tot (f xp ⟨m1, a⟩) fun s2 => s2.act = a ∧ xp.Valid s2.mem ∧ Frame xp.Cell m1 s2.mem ∧
        ∀ i < x.dim, ∑ j ∈ Finset.range x.dim, M i j * xp.val s2.mem j = xp.val m1 i) :
    Tot (do
      let (xp, s) := openNew (alloc s.mem x.dim) x.dim junk s
      let s ← run (HMat.gather lidx lt x xp) s
      let s ← f xp s
      let s ← run (HMat.scatter ridx rt x xp) s
      uninitOwner xp s) fun s' => s'.act = s.act ∧ ∃ X, VecBecomes x s.mem X s'.mem ∧
      ∀ i < x.dim, ∑ j ∈ Finset.range x.dim, M i j * X (ridx.v (rt.cl.off + j)) = x.val s.mem (lidx.v (lt.cl.off + i)) := by
  obtain ⟨m, a⟩ := s
  simp only at hb hx hf ⊢
  have hfr := hal m x.dim hb
  have cellSome : ∀ {v : Vec} {m : Mem K} {c : Nat}, v.Valid m → v.Cell c → (m c).isSome := by
    rintro v m c hv ⟨i, hi, rfl⟩; exact hv i hi
  unfold openNew
  simp only
  generalize alloc m x.dim = px at *
  obtain ⟨xp, exp⟩ : ∃ xp : Vec, xp = ⟨px, x.dim⟩ := ⟨_, rfl⟩
  have dxp : xp.dim = x.dim := by rw [exp]
  obtain ⟨m1, em1⟩ : ∃ m1, m1 = m.alloc px x.dim junk := ⟨_, rfl⟩
  have hb1 : FiniteMem m1 := by rw [em1]; exact bounded_alloc hb _ _ _
  rw [← exp, ← em1]
  have old1 : ∀ c, (m c).isSome → m1 c = m c := fun c h => by rw [em1]; exact HMat.alloc_old hfr h
  have vc : ∀ {c}, xp.Cell c ↔ px ≤ c ∧ c < px + x.dim := by intro c; rw [exp]; exact HMat.vcell_iff
  have xpN : ∀ c, (m c).isSome → ¬ xp.Cell c := by
    intro c h hc
    rw [vc] at hc
    rw [hfr c hc.1 hc.2] at h; exact absurd h (by simp)
  have val1 : ∀ i < x.dim, x.val m1 i = x.val m i := fun i hi => by
    unfold Vec.val; rw [old1 _ (hx i hi)]
  have hv1 : xp.Valid m1 := by rw [exp, em1]; exact HMat.alloc_vvalid
  have gt := HMat.gather_tot (t := lt) (v := x) (vp := xp) (m := m1) (idx := lidx) (by rw [dxp]; exact hl) dxp.symm
    (fun i hi => by rw [old1 _ (hx i hi)]; exact hx i hi) hv1 fun c hc => xpN c (cellSome hx hc)
  refine Tot.bind (run_tot gt) ?_
  rintro ⟨m2, a2⟩ - ⟨ha2, h2⟩
  simp only at ha2 h2
  subst ha2
  have old2 : ∀ c, (m c).isSome → m2 c = m c := fun c h => by rw [h2.2.2 c (xpN c h), old1 c h]
  refine Tot.bind (hf xp m2 (a + 1) (fun c h => ⟨old2 c h, xpN c h⟩) (bounded_frame hb1 h2.2.2) h2.1 dxp) ?_
  rintro ⟨m3, a3⟩ - ⟨k0, k1, k2, k3⟩
  simp only at k0 k1 k2 k3
  subst k0
  have old3 : ∀ c, (m c).isSome → m3 c = m c := fun c h => by rw [k2 c (xpN c h), old2 c h]
  have st := HMat.scatter_tot (t := rt) (v := x) (vp := xp) (m := m3) (idx := ridx) (by rw [dxp]; exact hr) dxp.symm
    (fun i hi => by rw [old3 _ (hx i hi)]; exact hx i hi) k1 fun c hc h => xpN c (cellSome hx h) hc
  rw [dxp] at st
  refine Tot.bind (run_tot st) ?_
  rintro ⟨m4, a4⟩ - ⟨ha4, s1, s2, s3⟩
  simp only at ha4 s1 s2 s3
  subst ha4
  have nf : ∀ c, (m c).isSome → m4.free xp.base xp.dim c = m4 c := by
    intro c h
    have b := xpN c h
    rw [vc] at b
    rw [exp]
    simp only [Mem.free]
    rw [if_neg b]
  unfold uninitOwner
  refine Tot.cassert (by simp) (Tot.pure ⟨by simp, x.val m4, ⟨fun i hi => ?_, fun i hi => ?_, fun c hc => ?_⟩, fun i hi => ?_⟩)
  · simp only; rw [nf _ (hx i hi)]; exact s1 i hi
  · simp only; unfold Vec.val; rw [nf _ (hx i hi)]
  · simp only
    by_cases h : (m c).isSome
    · rw [nf c h, s3 c hc, old3 c h]
    · have hn : m c = none := by simpa using h
      rw [hn, exp]
      simp only [Mem.free]
      by_cases h1 : px ≤ c ∧ c < px + x.dim
      · rw [if_pos h1]
      · rw [if_neg h1, s3 c hc, k2 c fun h => h1 (vc.mp h), h2.2.2 c fun h => h1 (vc.mp h), em1, Rk.alloc_of_not h1, hn]
  · have e := h2.2.1 i (by rw [dxp]; exact hi)
    beta_reduce at e
    rw [← val1 _ (hl.2.1 i hi), ← e, ← k3 i hi]
    refine Finset.sum_congr rfl fun j hj => ?_
    rw [s2 j (Finset.mem_range.mp hj)]

/-- what is allocated does not change -/
theorem ready_old {m m1 : Mem K} {a : H2Mat G} {xp : Vec} (h : H2Ready m a) (h1 : ∀ c, (m c).isSome → m1 c = m c ∧ ¬ xp.Cell c) :
    H2Ready m1 a ∧ H2Apart a xp ∧ h2entry m1 a = h2entry m a := by
  have hn : ∀ c, m c ≠ none → m1 c = m c ∧ ¬ xp.Cell c := fun c hc => h1 c (by cases e : m c <;> simp_all)
  obtain ⟨-, -, -, -, -, hv, vr, vc⟩ := id h
  obtain ⟨g1, g2⟩ := ready_frame (S := fun c => m c = none) h (none_hdisj hv) (none_cdisj vr) (none_cdisj vc) fun c hc => (hn c hc).1
  refine ⟨g1, ⟨fun c hc => (hn c (none_hdisj hv c hc)).2, fun c hc => (hn c (none_cdisj vr c hc)).2,
    fun c hc => (hn c (none_cdisj vc c hc)).2⟩, ?_⟩
  funext i j; exact g2 _ _

theorem perm2 {n : Nat} {lidx ridx : Arr Nat} {lo ro : Nat} (hl : IsPerm lidx lo n) (hr : IsPerm ridx ro n) {M D : Nat → Nat → K}
    {X b : Nat → K} (hD : ∀ i < n, ∀ j < n, D (lidx.v (lo + i)) (ridx.v (ro + j)) = M i j)
    (h : ∀ i < n, ∑ j ∈ Finset.range n, M i j * X (ridx.v (ro + j)) = b (lidx.v (lo + i))) :
    ∀ p < n, ∑ q ∈ Finset.range n, D p q * X q = b p := by
  intro p hp
  obtain ⟨i, hi, rfl⟩ := hl.surj hp
  rw [HMat.sum_perm hr, ← h i hi]
  refine Finset.sum_congr rfl fun j hj => ?_
  rw [hD i hi j (Finset.mem_range.mp hj)]

theorem lrsolve_tot {lidx ridx : Arr Nat} {alloc : Mem K → Nat → Nat} {junk : Nat → K} (hal : FreshAlloc alloc) {L U : H2Mat G}
    {x : Vec} {s : VSt K} (hb : FiniteMem s.mem) (rl : H2Ready s.mem L) (ru : H2Ready s.mem U) (sl : H2SqOk L) (su : H2SqOk U)
    (nl : L.rb.size = x.dim) (nu : U.rb.size = x.dim) (hl : IsPerm lidx L.cb.t.cl.off x.dim)
    (hr : IsPerm ridx U.rb.t.cl.off x.dim) (hx : x.Valid s.mem) (hD : ∀ i < x.dim, h2entry s.mem U i i ≠ 0) :
    Tot (lrsolve lidx ridx alloc junk L U x s) fun s' => s'.act = s.act ∧ ∃ X, VecBecomes x s.mem X s'.mem ∧
      ∀ i < x.dim, ∑ j ∈ Finset.range x.dim, (∑ l ∈ Finset.range x.dim, tri true true (h2entry s.mem L) i l *
        tri false false (h2entry s.mem U) l j) * X (ridx.v (U.rb.t.cl.off + j)) = x.val s.mem (lidx.v (L.cb.t.cl.off + i)) := by
  have := permV_tot (lidx := lidx) (ridx := ridx) (junk := junk) hal (lt := L.cb.t) (rt := U.rb.t) hb hl hr hx
    (f := fun xp s => triSolveVec alloc junk true true false L xp s >>= triSolveVec alloc junk false false false U xp)
    (M := fun i j => ∑ l ∈ Finset.range x.dim, tri true true (h2entry s.mem L) i l * tri false false (h2entry s.mem U) l j) ?_
  · simp only [bind_assoc] at this
    exact this
  · intro xp m1 a h1 hb1 hv hd
    obtain ⟨c1, c2, c3⟩ := ready_old rl h1
    obtain ⟨d1, d2, d3⟩ := ready_old ru h1
    have h := solve2_tot (junk := junk) (s := ⟨m1, a⟩) hal hb1 c1 d1 sl su hv c2 d2 hd nl nu true true false false false false
      (fun h => by cases h) (fun _ i hi => by simp only; rw [d3]; exact hD i hi)
    simp only [c3, d3] at h
    exact h

theorem cholsolve_tot {cidx ridx : Arr Nat} {alloc : Mem K → Nat → Nat} {junk : Nat → K} (hal : FreshAlloc alloc) {L : H2Mat G}
    {x : Vec} {s : VSt K} (hb : FiniteMem s.mem) (rl : H2Ready s.mem L) (sl : H2SqOk L)
    (nl : L.rb.size = x.dim) (hl : IsPerm cidx L.cb.t.cl.off x.dim)
    (hr : IsPerm ridx L.rb.t.cl.off x.dim) (hx : x.Valid s.mem) (hD : ∀ i < x.dim, h2entry s.mem L i i ≠ 0) :
    Tot (cholsolve cidx ridx alloc junk L x s) fun s' => s'.act = s.act ∧ ∃ X, VecBecomes x s.mem X s'.mem ∧
      ∀ i < x.dim, ∑ j ∈ Finset.range x.dim, (∑ l ∈ Finset.range x.dim, tri true false (h2entry s.mem L) i l *
        star (tri true false (h2entry s.mem L) j l)) * X (ridx.v (L.rb.t.cl.off + j)) = x.val s.mem (cidx.v (L.cb.t.cl.off + i)) := by
  have := permV_tot (lidx := cidx) (ridx := ridx) (junk := junk) hal (lt := L.cb.t) (rt := L.rb.t) hb hl hr hx
    (f := fun xp s => triSolveVec alloc junk true false false L xp s >>= triSolveVec alloc junk true false true L xp)
    (M := fun i j => ∑ l ∈ Finset.range x.dim, tri true false (h2entry s.mem L) i l * star (tri true false (h2entry s.mem L) j l)) ?_
  · simp only [bind_assoc] at this
    unfold cholsolve
    refine Tot.cassert (decide_eq_true ?_) this
    rw [← sq_eq sl]; exact nl.symm
  · intro xp m1 a h1 hb1 hv hd
    obtain ⟨c1, c2, c3⟩ := ready_old rl h1
    have h := solve2_tot (junk := junk) (s := ⟨m1, a⟩) hal hb1 c1 c1 sl sl hv c2 c2 hd nl nl true false false true false true
      (fun _ i hi => by simp only; rw [c3]; exact hD i hi) (fun _ i hi => by simp only; rw [c3]; exact hD i hi)
    simp only [c3] at h
    exact h

end H2Mat
end H2
