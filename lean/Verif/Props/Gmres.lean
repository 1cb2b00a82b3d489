import Verif.Proof.Gmres14
import Verif.Props.KrylovBicg
import Verif.Props.QR

/-! # C66: GMRES -/

set_option linter.unusedSectionVars false

namespace H2.Props
open Spec Dense Matrix Krylov Gm
variable {n : Nat} {C : Nat → Prop} {b x rhat q : Vec} {qr : Mat} {m : Mem ℝ}
variable {A : Nat → Nat → ℝ} {N : Matrix (Fin n) (Fin n) ℝ} {f : AddEval ℝ} {prcd : Option (Prcd ℝ)} {sgn : ℝ → ℝ}

/-- `k` regular steps: the reported residual is the minimal one, nothing but the working vectors and `qr` changes; `finish_gmres` (or `finish_pgmres`) sets `x` to a vector of the
Krylov space that has this residual, and prepares the next cycle. -/
theorem C66_steps (hs : SignFn 0 sgn) (junk : Nat → ℝ) (hf : IsAddEval f n A C m) (hp : IsPrcdOpt prcd n N.mulVec C m) (hv : GmresVars n C b x rhat q qr m) {k : Nat} (hk : k < n) (hc : k < qr.cols)
    (hreg : Regular n A N.mulVec (b.val m) (x.val m) k) (k0 : Nat) {tau : Arr ℝ} (ht : qr.cols ≤ tau.n) :
    Tot (initGmres sgn 0 junk f prcd b x rhat q qr ⟨k0, tau, m⟩ >>= forUp 0 k fun _ => stepGmres sgn 0 junk f prcd rhat q qr) fun st =>
      st.k = k ∧ residualnormGmres rhat st.k st.m = .ok (√(minRes n A N.mulVec (b.val m) (x.val m) k)) ∧
      (∀ i < n, b.val st.m i = b.val m i ∧ x.val st.m i = x.val m i) ∧ OnlyVectors (gvec b x rhat q qr) m st.m ∧
      Tot (finishGmres sgn 0 junk f prcd b x rhat q qr st) fun st' =>
        GmresIterate n A N.mulVec (b.val m) (x.val m) k (x.val st'.m) ∧ resSq n A N.mulVec (b.val m) (x.val st'.m) = minRes n A N.mulVec (b.val m) (x.val m) k ∧
        st'.k = 0 ∧ residualnormGmres rhat st'.k st'.m = .ok (√(minRes n A N.mulVec (b.val m) (x.val m) k)) ∧
        (∀ i < n, b.val st'.m i = b.val m i) ∧ OnlyVectors (gvec b x rhat q qr) m st'.m := by
  have db : b.dim = n := gdim hv .b
  have dx : x.dim = n := gdim hv .x
  refine (run_tot hs hf hp hv hk hc hreg k0 ht).mono fun st ⟨F, H, β, g⟩ => ⟨g.hk, g.residual hv, fun i hi => ⟨?_, ?_⟩, g.hold.2, ?_⟩
  · exact (g.hold.val .b (show i < b.dim by omega)).trans (g.hb i hi)
  · exact (g.hold.val .x (show i < x.dim by omega)).trans (g.hx i hi)
  refine (finish_tot (junk := junk) hs hf hp hv hc g).mono fun st' ⟨X', F', H', β', g1, g2, g3⟩ => ?_
  have ex : ∀ i < n, X' i = x.val st'.m i := fun i hi => ((g3.hold.val .x (show i < x.dim by omega)).trans (g3.hx i hi)).symm
  refine ⟨iterate_congr ex g1, by rw [← resSq_congr (fun _ _ => rfl) ex, g2], g3.hk, ?_, fun i hi => ?_, g3.hold.2⟩
  · rw [g3.residual hv, minRes_zero, g2]
  · exact (g3.hold.val .b (show i < b.dim by omega)).trans (g3.hb i hi)

/-- When all columns of `qr` are used, a step does nothing. -/
theorem C66_full (sgn : ℝ → ℝ) (junk : Nat → ℝ) (f : AddEval ℝ) (prcd : Option (Prcd ℝ)) (rhat q : Vec) (qr : Mat) {st : GSt ℝ} (h : qr.cols ≤ st.k + 1) :
    stepGmres sgn 0 junk f prcd rhat q qr st = .ok st := if_pos h

/-- Defect: if the step after `k` regular ones would exactly halve the minimal squared residual, no rotation is performed.  The step reports a residual of zero although the minimal
residual is not zero, and the vector computed by `finish_gmres` has a residual as large as the one before the step. -/
theorem C66_tie (hs : SignFn 0 sgn) (junk : Nat → ℝ) (hf : IsAddEval f n A C m) (hp : IsPrcdOpt prcd n N.mulVec C m) (hv : GmresVars n C b x rhat q qr m) {k : Nat} (hk : k + 1 < n) (hc : k + 1 < qr.cols)
    (hreg : Regular n A N.mulVec (b.val m) (x.val m) k) (k0 : Nat) {tau : Arr ℝ} (ht : qr.cols ≤ tau.n)
    (h0 : 0 < minRes n A N.mulVec (b.val m) (x.val m) k) (hh : 2 * minRes n A N.mulVec (b.val m) (x.val m) (k + 1) = minRes n A N.mulVec (b.val m) (x.val m) k) :
    Tot (initGmres sgn 0 junk f prcd b x rhat q qr ⟨k0, tau, m⟩ >>= forUp 0 (k + 1) fun _ => stepGmres sgn 0 junk f prcd rhat q qr) fun st =>
      st.k = k + 1 ∧ residualnormGmres rhat st.k st.m = .ok 0 ∧ 0 < minRes n A N.mulVec (b.val m) (x.val m) (k + 1) ∧
      Tot (finishGmres sgn 0 junk f prcd b x rhat q qr st) fun st' => resSq n A N.mulVec (b.val m) (x.val st'.m) = minRes n A N.mulVec (b.val m) (x.val m) k := by
  have dx : x.dim = n := gdim hv .x
  obtain ⟨st, e, F, H, β, g⟩ := run_tot (junk := junk) hs hf hp hv (by omega) (by omega) hreg k0 ht
  have e' : (initGmres sgn 0 junk f prcd b x rhat q qr ⟨k0, tau, m⟩ >>= forUp 0 (k + 1) fun _ => stepGmres sgn 0 junk f prcd rhat q qr) = stepGmres sgn 0 junk f prcd rhat q qr st := by
    obtain ⟨st0, e0, e1⟩ := bind_ok.mp e
    rw [e0, ok_bind, forUp_last, e1, ok_bind]
  rw [e']
  refine (tie_tot (junk := junk) hs hf hp hv hk hc g h0 hh).mono fun st1 ⟨h1, h2, h3⟩ => ⟨h1, h2, by linarith, h3.mono fun st2 ⟨X', F', H', β', h4, h5⟩ => ?_⟩
  rw [← h4]
  exact resSq_congr (fun _ _ => rfl) fun i hi => (h5.hold.val .x (show i < x.dim by omega)).trans (h5.hx i hi)

/-- Defect: there is no test for `k + 1 = n`.  After `n - 1` regular steps, the next one writes behind the end of `q` if there are columns left in `qr`. -/
theorem C66_overrun (hs : SignFn 0 sgn) (junk : Nat → ℝ) (hf : IsAddEval f n A C m) (hp : IsPrcdOpt prcd n N.mulVec C m) (hv : GmresVars n C b x rhat q qr m) {k : Nat} (hk : k + 1 = n) (hc : n < qr.cols)
    (hreg : Regular n A N.mulVec (b.val m) (x.val m) k) (hq : m (q.addr n) = none) (k0 : Nat) {tau : Arr ℝ} (ht : qr.cols ≤ tau.n) :
    (initGmres sgn 0 junk f prcd b x rhat q qr ⟨k0, tau, m⟩ >>= forUp 0 n fun _ => stepGmres sgn 0 junk f prcd rhat q qr) = .error .ub := by
  obtain ⟨st, e, F, H, β, g⟩ := run_tot (junk := junk) hs hf hp hv (by omega) (by omega) hreg k0 ht
  obtain ⟨st0, e0, e1⟩ := bind_ok.mp e
  rw [e0, ok_bind, ← hk, forUp_last, e1, ok_bind]
  exact step_ub hs hf hp hv hk hc hq g

/-- `solve_gmres_avector`: if the steps are regular, the solver stops with the tolerance or the step limit reached; `x` is an optimal vector of the last cycle; nothing else changes. -/
theorem C66_solve (hs : SignFn 0 sgn) (hf : IsAddEval f n A C m) (hC : ∀ c, C c → (m c).isSome) (hn : 0 < n) (hb : b.Valid m) (hx : x.Valid m) (db : b.dim = n) (dx : x.dim = n)
    (hbx : Disj b.Cell x.Cell) (hbC : Disj b.Cell C) (hxC : Disj x.Cell C) {nrhat nr nq nqr kmax : Nat} (fr : FreshVecs m [⟨nrhat, n⟩, ⟨nr, n⟩, ⟨nq, n⟩, ⟨nqr, n * kmax⟩])
    (hc : 2 ≤ kmax) (k0 : Nat) (junk junkT : Nat → ℝ) {eps : ℝ} {maxiter fuel : Nat} (hmax0 : 0 < maxiter) (hmax : maxiter < 2 ^ 32) (hfuel : maxiter ≤ fuel + 1)
    (hreg : RegularRun n A id (b.val m) (x.val m) kmax (eps * nrm n (b.val m)) maxiter) :
    ∃ iter m', solveGmres sgn 0 f b x nrhat nr nq nqr k0 junk junkT eps maxiter kmax fuel m = .ok (iter, m') ∧ GmresSolved n A id b x kmax (eps * nrm n (b.val m)) maxiter m iter m' := by
  obtain ⟨m1, hm1⟩ : ∃ m1, m1 = (((m.alloc nrhat n junk).alloc nr n junk).alloc nq n junk).alloc nqr (n * kmax) junk := ⟨_, rfl⟩
  have keep : ∀ c, ¬ NewCell n nrhat nr nq nqr kmax c → m1 c = m c := fun c h => by
    simp only [NewCell, not_or] at h
    rw [hm1, alloc_out h.2.2.2, alloc_out h.2.2.1, alloc_out h.2.1, alloc_out h.1]
  have new : ∀ c, NewCell n nrhat nr nq nqr kmax c → (m1 c).isSome := fun c h => hm1 ▸ alloc_new h
  have hv := gmres_vars hC hb hx db dx hbx hbC hxC fr keep new
  have same : ∀ c, (m c).isSome → m1 c = m c := fun c h => keep c fun h' => by
    have := fr.1
    simp only [List.forall_mem_cons, List.not_mem_nil, IsEmpty.forall_iff, implies_true, and_true] at this
    rcases h' with h' | h' | h' | h'
    · rw [this.1 c h'] at h; cases h
    · rw [this.2.1 c h'] at h; cases h
    · rw [this.2.2.1 c h'] at h; cases h
    · rw [this.2.2.2 c h'] at h; cases h
  have vb : b.Valid m1 := (hv.sep.1 .b).1.1
  have eb : ∀ i < n, b.val m1 i = b.val m i := fun i hi => by unfold Vec.val; rw [same _ (hb i (by omega))]
  have ex : ∀ i < n, x.val m1 i = x.val m i := fun i hi => by unfold Vec.val; rw [same _ (hx i (by omega))]
  have hf1 : IsAddEval f n A C m1 := fun alpha y z m' h => hf alpha y z m' fun c hc => by rw [h c hc, same c (hC c hc)]
  have h1 : (1 : Matrix (Fin n) (Fin n) ℝ).mulVec = id := funext fun v => one_mulVec v
  rw [← h1] at hreg ⊢
  obtain ⟨st0, e0, e, iter, st1, g1, g2, g3, g4, g5, st2, g6, F, g7, g8, g9, y, k, g10, g11⟩ := solve_core (junk := junkT) hs hf1 (prcd := none) (N := 1) h1 hv hn hc hmax hmax0 eb ex hreg k0
    (tau := ⟨kmax, junkT⟩) le_rfl hfuel
  obtain ⟨r1, r2⟩ := gmres_frame hb hx db dx hbx fr keep g7 g8
  refine ⟨iter, _, ?_, ⟨g4, ?_, ⟨y, k, g10, iterate_congr (fun i hi => (r2 i hi).symm) g11⟩, r1⟩⟩
  · unfold solveGmres
    rw [dx]
    simp only
    rw [cassert_true (show decide (b.dim = n) = true from decide_eq_true db), ok_bind, ← hm1, norm2Vec_tot vb, ok_bind, g1, ok_bind, g2, ok_bind, db, nrm_congr eb, g3, ok_bind]
    simp only
    rw [g6, ok_bind]
    rfl
  · rw [resSq_congr (fun _ _ => rfl) r2]; exact g9

/-- `solve_pgmres_avector` with a preconditioner `N`; the tolerance refers to the preconditioned right-hand side. -/
theorem C66_psolve (hs : SignFn 0 sgn) (hf : IsAddEval f n A C m) (hC : ∀ c, C c → (m c).isSome) {pr : Prcd ℝ} (hp : IsPrcd pr n N.mulVec C m) (hn : 0 < n) (hb : b.Valid m) (hx : x.Valid m) (db : b.dim = n)
    (dx : x.dim = n) (hbx : Disj b.Cell x.Cell) (hbC : Disj b.Cell C) (hxC : Disj x.Cell C) {nrhat nr nq nqr kmax : Nat}
    (fr : FreshVecs m [⟨nrhat, n⟩, ⟨nr, n⟩, ⟨nq, n⟩, ⟨nqr, n * kmax⟩])
    (hc : 2 ≤ kmax) (k0 : Nat) (junk junkT : Nat → ℝ) {eps : ℝ} {maxiter fuel : Nat} (hmax0 : 0 < maxiter) (hmax : maxiter < 2 ^ 32) (hfuel : maxiter ≤ fuel + 1)
    (hreg : RegularRun n A N.mulVec (b.val m) (x.val m) kmax (eps * nrm n (Spec.ext N.mulVec (b.val m))) maxiter) :
    ∃ iter m', solvePgmres sgn 0 f pr b x nrhat nr nq nqr k0 junk junkT eps maxiter kmax fuel m = .ok (iter, m') ∧
      GmresSolved n A N.mulVec b x kmax (eps * nrm n (Spec.ext N.mulVec (b.val m))) maxiter m iter m' := by
  have fr' := fr.2
  have frn := fr.1
  simp only [List.forall_mem_cons, List.not_mem_nil, IsEmpty.forall_iff, implies_true, and_true] at frn
  obtain ⟨m0, hm0⟩ : ∃ m0, m0 = (((m.alloc nrhat n junk).alloc nr n junk).alloc nq n junk).alloc nqr (n * kmax) junk := ⟨_, rfl⟩
  have keep0 : ∀ c, ¬ NewCell n nrhat nr nq nqr kmax c → m0 c = m c := fun c h => by
    simp only [NewCell, not_or] at h
    rw [hm0, alloc_out h.2.2.2, alloc_out h.2.2.1, alloc_out h.2.1, alloc_out h.1]
  have new0 : ∀ c, NewCell n nrhat nr nq nqr kmax c → (m0 c).isSome := fun c h => hm0 ▸ alloc_new h
  have old : ∀ c, (m c).isSome → ¬ NewCell n nrhat nr nq nqr kmax c := fun c h h' => by
    rcases h' with h' | h' | h' | h'
    · rw [frn.1 c h'] at h; cases h
    · rw [frn.2.1 c h'] at h; cases h
    · rw [frn.2.2.1 c h'] at h; cases h
    · rw [frn.2.2.2 c h'] at h; cases h
  have vr : (Vec.mk nr n).Valid m0 := fun i hi => new0 _ (.inr (.inl ⟨i, hi, rfl⟩))
  have vb0 : b.Valid m0 := fun i hi => by rw [keep0 _ (old _ (hb i hi))]; exact hb i hi
  have dbr : Disj b.Cell (Vec.mk nr n).Cell := by
    rintro c ⟨i, hi, rfl⟩ h
    exact old _ (hb i hi) (.inr (.inl h))
  have dCr : ∀ c, C c → ¬ (Vec.mk nr n).Cell c := fun c h h' => old c (hC c h) (.inr (.inl h'))
  obtain ⟨m0', e1, b1⟩ := copyVec_tot vb0 vr dbr (by rw [db])
  obtain ⟨m1, e2, b2, b3, b4⟩ := hp ⟨nr, n⟩ m0' (fun c hc => by rw [b1.2.2 c (dCr c hc), keep0 c (old c (hC c hc))]) (fun c h h' => dCr c h' h) b1.1 rfl
  have keep : ∀ c, ¬ NewCell n nrhat nr nq nqr kmax c → m1 c = m c := fun c h => by
    have : ¬ (Vec.mk nr n).Cell c := fun h' => h (.inr (.inl h'))
    rw [b3 c this, b1.2.2 c this, keep0 c h]
  have new : ∀ c, NewCell n nrhat nr nq nqr kmax c → (m1 c).isSome := fun c h => by
    by_cases h' : (Vec.mk nr n).Cell c
    · obtain ⟨i, hi, rfl⟩ := h'
      exact b2 i hi
    · rw [b3 c h', b1.2.2 c h']; exact new0 c h
  have hv := gmres_vars hC hb hx db dx hbx hbC hxC fr keep new
  have same : ∀ c, (m c).isSome → m1 c = m c := fun c h => keep c (old c h)
  have eb0 : ∀ i < n, b.val m0 i = b.val m i := fun i hi => by unfold Vec.val; rw [keep0 _ (old _ (hb i (by omega)))]
  have eb : ∀ i < n, b.val m1 i = b.val m i := fun i hi => by unfold Vec.val; rw [same _ (hb i (by omega))]
  have ex : ∀ i < n, x.val m1 i = x.val m i := fun i hi => by unfold Vec.val; rw [same _ (hx i (by omega))]
  have er : ∀ i < n, (Vec.mk nr n).val m1 i = Spec.ext N.mulVec (b.val m) i := fun i hi => by
    have := congrFun b4 ⟨i, hi⟩
    replace this : (Vec.mk nr n).val m1 i = N.mulVec (vec n ((Vec.mk nr n).val m0')) ⟨i, hi⟩ := this
    rw [this, show vec n ((Vec.mk nr n).val m0') = vec n (b.val m) from funext fun j => (b1.2.1 j j.2).trans (eb0 j j.2)]
    unfold Spec.ext
    rw [dif_pos hi]
  have hf1 : IsAddEval f n A C m1 := fun alpha y z m' h => hf alpha y z m' fun c hc => by rw [h c hc, same c (hC c hc)]
  have hp1 : IsPrcdOpt (some pr) n N.mulVec C m1 := fun y m' h => hp y m' fun c hc => by rw [h c hc, same c (hC c hc)]
  obtain ⟨st0, e0, e, iter, st1, g1, g2, g3, g4, g5, st2, g6, g7⟩ := solve_core (junk := junkT) hs hf1 hp1 hv hn hc hmax hmax0 eb ex hreg k0 (tau := ⟨kmax, junkT⟩) le_rfl hfuel
  have hfin : ∃ st', (if st1.k > 0 then finishGmres sgn 0 junkT f (some pr) b x ⟨nrhat, n⟩ ⟨nq, n⟩ ⟨nqr, n, n, kmax⟩ st1 else pure st1) = .ok st' ∧
      ∃ F : GVar kmax → Nat → ℝ, Holds (gvec b x ⟨nrhat, n⟩ ⟨nq, n⟩ ⟨nqr, n, n, kmax⟩) m1 F st'.m ∧ (∀ i < n, F .b i = b.val m i) ∧
        (√(resSq n A N.mulVec (b.val m) (F .x)) ≤ eps * nrm n (Spec.ext N.mulVec (b.val m)) ∨ iter + 1 = maxiter) ∧
        ∃ y k, GmresRun n A N.mulVec (b.val m) (x.val m) kmax (eps * nrm n (Spec.ext N.mulVec (b.val m))) iter y k ∧ GmresIterate n A N.mulVec (b.val m) y k (F .x) := by
    by_cases h : st1.k > 0
    · rw [if_pos h]; exact ⟨st2, g6, g7⟩
    · rw [if_neg h]; exact ⟨st1, rfl, g5 (by omega)⟩
  obtain ⟨st', g6, F, g7, g8, g9, y, k, g10, g11⟩ := hfin
  obtain ⟨r1, r2⟩ := gmres_frame hb hx db dx hbx fr keep g7 g8
  refine ⟨iter, _, ?_, ⟨g4, ?_, ⟨y, k, g10, iterate_congr (fun i hi => (r2 i hi).symm) g11⟩, r1⟩⟩
  · unfold solvePgmres
    rw [dx]
    simp only
    rw [cassert_true (show decide (b.dim = n) = true from decide_eq_true db), ok_bind, ← hm0, e1, ok_bind, e2, ok_bind, norm2Vec_tot b2, ok_bind, g1, ok_bind, g2, ok_bind, nrm_congr er, g3, ok_bind]
    simp only
    rw [g6, ok_bind]
    rfl
  · rw [resSq_congr (fun _ _ => rfl) r2]; exact g9

/-- Without restarts the runs of the solvers are those of a single cycle. -/
theorem C66_single_cycle {M : (Fin n → ℝ) → Fin n → ℝ} {b x : Nat → ℝ} {kmax maxiter : Nat} (tol : ℝ) (h1 : maxiter ≤ kmax) (h2 : maxiter ≤ n) (hreg : Regular n A M b x (maxiter - 1)) :
    RegularRun n A M b x kmax tol maxiter := by
  have key : ∀ i y k, GmresRun n A M b x kmax tol i y k → i + 1 < maxiter → y = x ∧ k = i := by
    intro i y k h
    induction h with
    | start => exact fun _ => ⟨rfl, rfl⟩
    | step h _ _ ih =>
      intro hi
      obtain ⟨e1, e2⟩ := ih (by omega)
      exact ⟨e1, by omega⟩
    | restart h _ h' _ ih =>
      intro hi
      obtain ⟨e1, e2⟩ := ih hi
      omega
  intro i y k h hi hk _
  obtain ⟨rfl, rfl⟩ := key i y k h hi
  exact ⟨by omega, (hreg k (by omega)).1, (hreg k (by omega)).2⟩

/-- Defect: with `kmax = 1` the solver makes no progress.  If the initial vector does not meet the tolerance, all the permitted steps are counted, but nothing changes. -/
theorem C66_one_column (hs : SignFn 0 sgn) (hf : IsAddEval f n A C m) (hC : ∀ c, C c → (m c).isSome) (hn : 0 < n) (hb : b.Valid m) (hx : x.Valid m) (db : b.dim = n) (dx : x.dim = n)
    (hbx : Disj b.Cell x.Cell) (hbC : Disj b.Cell C) (hxC : Disj x.Cell C) {nrhat nr nq nqr : Nat} (fr : FreshVecs m [⟨nrhat, n⟩, ⟨nr, n⟩, ⟨nq, n⟩, ⟨nqr, n * 1⟩])
    (k0 : Nat) (junk junkT : Nat → ℝ) {eps : ℝ} {maxiter fuel : Nat} (hmax0 : 0 < maxiter) (hmax : maxiter < 2 ^ 32) (hfuel : maxiter ≤ fuel + 1)
    (htol : eps * nrm n (b.val m) < √(resSq n A id (b.val m) (x.val m))) :
    solveGmres sgn 0 f b x nrhat nr nq nqr k0 junk junkT eps maxiter 1 fuel m = .ok (maxiter - 1, m) := by
  obtain ⟨m1, hm1⟩ : ∃ m1, m1 = (((m.alloc nrhat n junk).alloc nr n junk).alloc nq n junk).alloc nqr (n * 1) junk := ⟨_, rfl⟩
  have keep : ∀ c, ¬ NewCell n nrhat nr nq nqr 1 c → m1 c = m c := fun c h => by
    simp only [NewCell, not_or] at h
    rw [hm1, alloc_out h.2.2.2, alloc_out h.2.2.1, alloc_out h.2.1, alloc_out h.1]
  have new : ∀ c, NewCell n nrhat nr nq nqr 1 c → (m1 c).isSome := fun c h => hm1 ▸ alloc_new h
  have hv := gmres_vars hC hb hx db dx hbx hbC hxC fr keep new
  have same : ∀ c, (m c).isSome → m1 c = m c := fun c h => keep c fun h' => by
    have := fr.1
    simp only [List.forall_mem_cons, List.not_mem_nil, IsEmpty.forall_iff, implies_true, and_true] at this
    rcases h' with h' | h' | h' | h'
    · rw [this.1 c h'] at h; cases h
    · rw [this.2.1 c h'] at h; cases h
    · rw [this.2.2.1 c h'] at h; cases h
    · rw [this.2.2.2 c h'] at h; cases h
  have vb : b.Valid m1 := (hv.sep.1 .b).1.1
  have eb : ∀ i < n, b.val m1 i = b.val m i := fun i hi => by unfold Vec.val; rw [same _ (hb i (by omega))]
  have ex : ∀ i < n, x.val m1 i = x.val m i := fun i hi => by unfold Vec.val; rw [same _ (hx i (by omega))]
  have hf1 : IsAddEval f n A C m1 := fun alpha y z m' h => hf alpha y z m' fun c hc => by rw [h c hc, same c (hC c hc)]
  have h1 : (1 : Matrix (Fin n) (Fin n) ℝ).mulVec = id := funext fun v => one_mulVec v
  rw [← h1] at htol
  have htol' : eps * nrm n (b.val m) < √(minRes n A (1 : Matrix (Fin n) (Fin n) ℝ).mulVec (b.val m1) (x.val m1) 0) := by
    rw [minRes_zero, resSq_congr eb ex]; exact htol
  obtain ⟨st0, e0, F0, H0, β0, g0⟩ := init_tot (junk := junkT) hs hf1 (prcd := none) (N := 1) h1 hv hn (by show 0 < 1; omega) (st := ⟨k0, ⟨1, junkT⟩, m1⟩) le_rfl (Holds.init hv.sep)
  obtain ⟨⟨e, iter, st1⟩, e1, hit, X, F, H, β, hX, g1⟩ := loop_one (junk := junkT) hs hf1 (prcd := none) (N := 1) h1 hv rfl hmax htol' fuel 0 _ st0 F0 H0 β0 hmax0 (by omega) (fun _ _ => rfl) g0
  obtain ⟨st2, e2, X', F', H', β', g2, g3, g4⟩ := finish_tot (junk := junkT) hs hf1 (prcd := none) (N := 1) h1 hv (by show 0 < 1; omega) g1
  have hX' : ∀ i < n, X' i = x.val m i := fun l hl => by
    obtain ⟨c, hc⟩ := g2.1
    rw [hc l hl, hX l hl]
    simp [ex l hl]
  obtain ⟨r1, r2⟩ := gmres_frame hb hx db dx hbx fr keep g4.hold (fun i hi => (g4.hb i hi).trans (eb i hi))
  have hmm : (((st2.m.free nqr (n * 1)).free nq n).free nr n).free nrhat n = m := by
    funext c
    by_cases hc : x.Cell c
    · obtain ⟨i, hi, rfl⟩ := hc
      have hi' : i < n := by omega
      have old : ∀ {w : Vec}, (∀ c, w.Cell c → m c = none) → ¬ w.Cell (x.addr i) := fun hw h => by
        have := hx i hi
        rw [hw _ h] at this; cases this
      have hfr := fr.1
      simp only [List.forall_mem_cons, List.not_mem_nil, IsEmpty.forall_iff, implies_true, and_true] at hfr
      rw [free_out (old hfr.1), free_out (old hfr.2.1), free_out (old hfr.2.2.1), free_out (old hfr.2.2.2)]
      have e3 := g4.hold.1 .x i hi
      replace e3 : st2.m (x.addr i) = some (F' .x i) := e3
      rw [e3, g4.hx i hi', hX' i hi']
      exact (hx.some hi).symm
    · exact r1 c hc
  unfold solveGmres
  rw [dx]
  simp only
  have e3 : residualnormGmres ⟨nrhat, n⟩ st0.k st0.m = _ := g0.residual hv
  rw [cassert_true (show decide (b.dim = n) = true from decide_eq_true db), ok_bind, ← hm1, norm2Vec_tot vb, ok_bind, e0, ok_bind, e3, ok_bind, db, nrm_congr eb]
  have e1' : gmresLoop sgn 0 junkT f none b x ⟨nrhat, n⟩ ⟨nq, n⟩ ⟨nqr, n, n, 1⟩ (eps * nrm n (b.val m)) maxiter fuel
    (√(minRes n A (1 : Matrix (Fin n) (Fin n) ℝ).mulVec (b.val m1) (x.val m1) 0), 0, st0) = .ok (e, iter, st1) := e1
  have e4 : (gvec b x ⟨nrhat, n⟩ ⟨nq, n⟩ ⟨nqr, n, n, 1⟩ .b).val m1 = b.val m1 := rfl
  have e5 : (gvec b x ⟨nrhat, n⟩ ⟨nq, n⟩ ⟨nqr, n, n, 1⟩ .x).val m1 = x.val m1 := rfl
  rw [e4, e5, e1', ok_bind]
  simp only
  rw [e2, ok_bind, hmm]
  replace hit : iter + 1 = maxiter := hit
  rw [show iter = maxiter - 1 by omega]
  rfl

/-- Defect of the complex build: the rotations are not unitary.  For the entries `2` and `i`, the result of `findapply_givens` has squared modulus `9/5` instead of `5`. -/
theorem C66_complex_defect {a b : Nat} (hab : a ≠ b) {m : Mem ℂ} (ha : m a = some 2) (hb : m b = some Complex.I) :
    ∃ rho m' v, findapplyGivens a b m = .ok (rho, m') ∧ m' a = some v ∧ m' b = some 0 ∧ ‖v‖ ^ 2 = 9 / 5 := by
  have hfind : findGivens (2 : ℂ) Complex.I = .ok (((1 / √(1 / 4 + 1) : ℝ) : ℂ), Complex.I / 2 * ((1 / √(1 / 4 + 1) : ℝ) : ℂ), Complex.I / 2 * ((1 / √(1 / 4 + 1) : ℝ) : ℂ)) := by
    have e1 : ‖(Complex.I / 2 : ℂ)‖ ^ 2 = 1 / 4 := by rw [norm_div, Complex.norm_I]; norm_num
    unfold findGivens
    rw [if_pos (by rw [Complex.norm_I]; norm_num)]
    have : cdiv Complex.I (2 : ℂ) = .ok (Complex.I / 2) := by unfold cdiv; rw [if_neg (by norm_num)]
    rw [this, ok_bind, e1]
    rfl
  unfold findapplyGivens
  rw [Mem.read_ok ha, ok_bind, Mem.read_ok hb, ok_bind, hfind, ok_bind]
  dsimp only
  rw [Mem.write_ok ha, ok_bind, Mem.write_ok (show m.upd a _ b = some Complex.I by rw [Mem.upd_ne hab.symm, hb])]
  refine ⟨_, _, ((1 / √(1 / 4 + 1) : ℝ) : ℂ) * 2 + Complex.I / 2 * ((1 / √(1 / 4 + 1) : ℝ) : ℂ) * Complex.I, rfl, ?_, ?_, ?_⟩
  · rw [Mem.upd_ne hab, Mem.upd_same]
  · rw [Mem.upd_same]
  · have e : ((1 / √(1 / 4 + 1) : ℝ) : ℂ) * 2 + Complex.I / 2 * ((1 / √(1 / 4 + 1) : ℝ) : ℂ) * Complex.I = ((3 / 2 * (1 / √(1 / 4 + 1)) : ℝ) : ℂ) := by
      push_cast
      linear_combination ((1 / (√(1 / 4 + 1) : ℝ) : ℂ) / 2) * Complex.I_mul_I
    rw [e, Complex.norm_real, Real.norm_eq_abs, sq_abs, mul_pow, div_pow, div_pow, Real.sq_sqrt (by norm_num)]
    norm_num

/-! ### the hypotheses are met -/

/-- the matrix with the columns `(p, q)` and `(0, 1)`, the right-hand side `(1, 0)`, the vector `x = 0`, and uninitialised cells up to the address `22` -/
noncomputable def gmEx (p q : ℝ) : Mem ℝ := fun c =>
  if c < 22 then some (if c = 0 then p else if c = 1 then q else if c = 3 ∨ c = 4 then 1 else if c = 2 ∨ c = 5 ∨ c = 6 ∨ c = 7 then 0 else 7) else none

theorem gmEx_valid (p q : ℝ) : (Mat.mk 0 2 2 2).Valid (gmEx p q) := by
  refine ⟨by decide, fun i hi j hj => ?_⟩
  simp only at hi hj
  have : (Mat.mk 0 2 2 2).addr i j < 22 := by simp only [Mat.addr]; omega
  simp only [gmEx, if_pos this]; rfl

theorem gmEx_vars (p q : ℝ) : GmresVars 2 (Mat.mk 0 2 2 2).Cell ⟨4, 2⟩ ⟨6, 2⟩ ⟨8, 2⟩ ⟨20, 2⟩ ⟨10, 2, 2, 3⟩ (gmEx p q) := by
  have hb : ∀ v : GVar 3, ∃ a, gvec ⟨4, 2⟩ ⟨6, 2⟩ ⟨8, 2⟩ ⟨20, 2⟩ ⟨10, 2, 2, 3⟩ v = ⟨a, 2⟩ ∧ 4 ≤ a ∧ a ≤ 20 := by
    rintro (_ | _ | _ | _ | j)
    · exact ⟨4, rfl, by omega, by omega⟩
    · exact ⟨6, rfl, by omega, by omega⟩
    · exact ⟨8, rfl, by omega, by omega⟩
    · exact ⟨20, rfl, by omega, by omega⟩
    · exact ⟨10 + j.1 * 2, rfl, by omega, by have := j.2; omega⟩
  refine ⟨rfl, le_rfl, fun v => ?_, ?_⟩
  · obtain ⟨a, e, h1, h2⟩ := hb v
    rw [e]
    refine ⟨⟨fun i hi => ?_, ?_⟩, rfl⟩
    · replace hi : i < 2 := hi
      have : a + i < 22 := by omega
      show (gmEx p q (a + i)).isSome
      unfold gmEx
      rw [if_pos this]; rfl
    · rintro c ⟨i, hi, rfl⟩ ⟨k, hk, l, hl, h⟩
      simp only [Mat.addr, Vec.addr] at h hk hl
      omega
  · rintro (_ | _ | _ | _ | j) (_ | _ | _ | _ | j') hne c ⟨i, hi, rfl⟩ ⟨k, hk, h⟩ <;> simp only [gvec, Vec.addr] at h hi hk <;> first | exact hne rfl | skip
    all_goals try omega
    exact hne (congrArg _ (Fin.ext (by omega)))

theorem gmEx_min0 (p q : ℝ) : minRes 2 ((Mat.mk 0 2 2 2).val (gmEx p q)) (1 : Matrix (Fin 2) (Fin 2) ℝ).mulVec ((Vec.mk 4 2).val (gmEx p q)) ((Vec.mk 6 2).val (gmEx p q)) 0 = 1 := by
  rw [minRes_zero]
  simp [resSq, Spec.ext, Spec.vec, mv, Finset.sum_range_succ, Vec.val, Vec.addr, Mat.val, Mat.addr, gmEx]

theorem gmEx_min1 {p q : ℝ} (h : 0 < p ^ 2 + q ^ 2) :
    minRes 2 ((Mat.mk 0 2 2 2).val (gmEx p q)) (1 : Matrix (Fin 2) (Fin 2) ℝ).mulVec ((Vec.mk 4 2).val (gmEx p q)) ((Vec.mk 6 2).val (gmEx p q)) 1 = q ^ 2 / (p ^ 2 + q ^ 2) := by
  have key : ∀ y : Nat → ℝ, ∀ c : Nat → ℝ, (∀ i < 2, y i = (Vec.mk 6 2).val (gmEx p q) i + ∑ l ∈ Finset.range 1, c l * kry 2 ((Mat.mk 0 2 2 2).val (gmEx p q)) (1 : Matrix (Fin 2) (Fin 2) ℝ).mulVec
      (fun i => (Vec.mk 4 2).val (gmEx p q) i - mv 2 ((Mat.mk 0 2 2 2).val (gmEx p q)) ((Vec.mk 6 2).val (gmEx p q)) i) l i) →
      resSq 2 ((Mat.mk 0 2 2 2).val (gmEx p q)) (1 : Matrix (Fin 2) (Fin 2) ℝ).mulVec ((Vec.mk 4 2).val (gmEx p q)) y = (1 - p * c 0) ^ 2 + (q * c 0) ^ 2 := by
    intro y c hy
    have h0 := hy 0 (by omega)
    have h1 := hy 1 (by omega)
    simp [kry, Spec.ext, Spec.vec, mv, Finset.sum_range_succ, Vec.val, Vec.addr, Mat.val, Mat.addr, gmEx] at h0 h1
    simp [resSq, Spec.ext, Spec.vec, mv, Finset.sum_range_succ, Vec.val, Vec.addr, Mat.val, Mat.addr, gmEx, h0, h1]
  unfold minRes
  refine le_antisymm (csInf_le ⟨0, ?_⟩ ⟨fun i => (Vec.mk 6 2).val (gmEx p q) i + ∑ l ∈ Finset.range 1, (p / (p ^ 2 + q ^ 2)) * _, ⟨fun _ => p / (p ^ 2 + q ^ 2), fun i _ => rfl⟩, ?_⟩) (le_csInf ?_ ?_)
  · rintro s ⟨y, -, rfl⟩
    exact Finset.sum_nonneg fun _ _ => by positivity
  · rw [key _ (fun _ => p / (p ^ 2 + q ^ 2)) fun i _ => rfl]
    field_simp
    ring
  · exact ⟨_, _, ⟨fun _ => 0, fun i _ => rfl⟩, rfl⟩
  · rintro s ⟨y, ⟨c, hc⟩, rfl⟩
    rw [key y c hc, div_le_iff₀ h]
    nlinarith [sq_nonneg ((p ^ 2 + q ^ 2) * c 0 - p)]

theorem gmEx_regular : Regular 2 ((Mat.mk 0 2 2 2).val (gmEx 2 1)) (1 : Matrix (Fin 2) (Fin 2) ℝ).mulVec ((Vec.mk 4 2).val (gmEx 2 1)) ((Vec.mk 6 2).val (gmEx 2 1)) 1 := by
  intro j hj
  obtain rfl : j = 0 := by omega
  rw [gmEx_min0, gmEx_min1 (by norm_num)]
  norm_num

theorem gmEx_one : (1 : Matrix (Fin 2) (Fin 2) ℝ).mulVec = id := funext fun v => one_mulVec v

theorem gmEx_fresh (p q : ℝ) : FreshVecs (gmEx p q) [⟨22, 2⟩, ⟨24, 2⟩, ⟨26, 2⟩, ⟨28, 2 * 2⟩] ∧ FreshVecs (gmEx p q) [⟨22, 2⟩, ⟨24, 2⟩, ⟨26, 2⟩, ⟨28, 2 * 1⟩] := by
  have k : ∀ a l, 22 ≤ a → ∀ c, (Vec.mk a l).Cell c → gmEx p q c = none := by
    rintro a l ha c ⟨i, -, rfl⟩
    exact if_neg (by show ¬ a + i < 22; omega)
  have d : ∀ a b l, a + 2 ≤ b → Disj (Vec.mk a 2).Cell (Vec.mk b l).Cell := by
    rintro a b l hab c ⟨i, hi, rfl⟩ ⟨j, hj, h⟩
    replace hi : i < 2 := hi
    replace h : a + i = b + j := h
    omega
  constructor <;>
  · refine ⟨?_, ?_⟩
    · simp only [List.forall_mem_cons, List.not_mem_nil, IsEmpty.forall_iff, implies_true, and_true]
      exact ⟨k _ _ (by omega), k _ _ (by omega), k _ _ (by omega), k _ _ (by omega)⟩
    · simp only [List.pairwise_cons, List.forall_mem_cons, List.not_mem_nil, IsEmpty.forall_iff, implies_true, and_true, List.Pairwise.nil]
      exact ⟨⟨d _ _ _ (by omega), d _ _ _ (by omega), d _ _ _ (by omega)⟩, ⟨d _ _ _ (by omega), d _ _ _ (by omega)⟩, d _ _ _ (by omega)⟩

/-- one regular step reduces the squared residual from `1` to `1 / 5` -/
example (junk : Nat → ℝ) : Tot (initGmres sgnReal 0 junk (fun alpha => addeval alpha (Mat.mk 0 2 2 2)) none ⟨4, 2⟩ ⟨6, 2⟩ ⟨8, 2⟩ ⟨20, 2⟩ ⟨10, 2, 2, 3⟩ ⟨9, ⟨3, junk⟩, gmEx 2 1⟩ >>=
    forUp 0 1 fun _ => stepGmres sgnReal 0 junk (fun alpha => addeval alpha (Mat.mk 0 2 2 2)) none ⟨8, 2⟩ ⟨20, 2⟩ ⟨10, 2, 2, 3⟩) fun st =>
      st.k = 1 ∧ residualnormGmres ⟨8, 2⟩ st.k st.m = .ok (√(1 / 5)) := by
  refine (C66_steps (b := ⟨4, 2⟩) (x := ⟨6, 2⟩) C56_sign_real junk (C47_callback_addeval (gmEx_valid 2 1) rfl) (prcd := none) gmEx_one (gmEx_vars 2 1) (by decide) (by decide) gmEx_regular 9
    (tau := ⟨3, junk⟩) le_rfl).mono fun st h => ⟨h.1, ?_⟩
  rw [h.2.1, gmEx_min1 (by norm_num)]
  norm_num

/-- a step with the defect: the squared residual `1 / 2` is reported as zero -/
example (junk : Nat → ℝ) : Tot (initGmres sgnReal 0 junk (fun alpha => addeval alpha (Mat.mk 0 2 2 2)) none ⟨4, 2⟩ ⟨6, 2⟩ ⟨8, 2⟩ ⟨20, 2⟩ ⟨10, 2, 2, 3⟩ ⟨9, ⟨3, junk⟩, gmEx 1 1⟩ >>=
    forUp 0 1 fun _ => stepGmres sgnReal 0 junk (fun alpha => addeval alpha (Mat.mk 0 2 2 2)) none ⟨8, 2⟩ ⟨20, 2⟩ ⟨10, 2, 2, 3⟩) fun st =>
      st.k = 1 ∧ residualnormGmres ⟨8, 2⟩ st.k st.m = .ok 0 := by
  refine (C66_tie (b := ⟨4, 2⟩) (x := ⟨6, 2⟩) C56_sign_real junk (C47_callback_addeval (gmEx_valid 1 1) rfl) (prcd := none) gmEx_one (gmEx_vars 1 1) (k := 0) (by decide) (by decide)
    (fun j hj => by omega) 9 (tau := ⟨3, junk⟩) le_rfl (by rw [gmEx_min0]; norm_num) (by rw [gmEx_min0, gmEx_min1 (by norm_num)]; norm_num)).mono fun st h => ⟨h.1, h.2.1⟩

/-- a second step is undefined -/
example (junk : Nat → ℝ) : (initGmres sgnReal 0 junk (fun alpha => addeval alpha (Mat.mk 0 2 2 2)) none ⟨4, 2⟩ ⟨6, 2⟩ ⟨8, 2⟩ ⟨20, 2⟩ ⟨10, 2, 2, 3⟩ ⟨9, ⟨3, junk⟩, gmEx 2 1⟩ >>=
    forUp 0 2 fun _ => stepGmres sgnReal 0 junk (fun alpha => addeval alpha (Mat.mk 0 2 2 2)) none ⟨8, 2⟩ ⟨20, 2⟩ ⟨10, 2, 2, 3⟩) = .error .ub :=
  C66_overrun (b := ⟨4, 2⟩) (x := ⟨6, 2⟩) C56_sign_real junk (C47_callback_addeval (gmEx_valid 2 1) rfl) (prcd := none) gmEx_one (gmEx_vars 2 1) (k := 1) rfl (by decide) gmEx_regular
    (if_neg (by decide)) 9 (tau := ⟨3, junk⟩) le_rfl

/-- the solver with two columns and two steps -/
example (junk : Nat → ℝ) : ∃ iter m', solveGmres sgnReal 0 (fun alpha => addeval alpha (Mat.mk 0 2 2 2)) ⟨4, 2⟩ ⟨6, 2⟩ 22 24 26 28 9 junk junk 0 2 2 2 (gmEx 2 1) = .ok (iter, m') ∧
    iter ≤ 1 ∧ Frame (Vec.mk 6 2).Cell (gmEx 2 1) m' := by
  have hv := gmEx_vars 2 1
  have hreg := gmEx_regular
  rw [gmEx_one] at hreg
  obtain ⟨iter, m', e, h⟩ := C66_solve (b := ⟨4, 2⟩) (x := ⟨6, 2⟩) (eps := 0) C56_sign_real (C47_callback_addeval (gmEx_valid 2 1) rfl)
    (fun c ⟨i, hi, j, hj, e⟩ => by rw [e]; exact (gmEx_valid 2 1).2 i hi j hj) (by decide) (hv.sep.1 .b).1.1 (hv.sep.1 .x).1.1 rfl rfl (hv.sep.2 .b .x (by simp)) (hv.sep.1 .b).1.2 (hv.sep.1 .x).1.2
    (gmEx_fresh 2 1).1 le_rfl 9 junk junk (maxiter := 2) (fuel := 2) (by omega) (by omega) (by omega) (C66_single_cycle _ le_rfl le_rfl hreg)
  exact ⟨iter, m', e, by have := h.limit; omega, h.frame⟩

/-- the same with the identity as the preconditioner -/
example (junk : Nat → ℝ) : ∃ iter m', solvePgmres sgnReal 0 (fun alpha => addeval alpha (Mat.mk 0 2 2 2)) (fun _ m => pure m) ⟨4, 2⟩ ⟨6, 2⟩ 22 24 26 28 9 junk junk 0 2 2 2 (gmEx 2 1) = .ok (iter, m') ∧
    iter ≤ 1 ∧ Frame (Vec.mk 6 2).Cell (gmEx 2 1) m' := by
  have hv := gmEx_vars 2 1
  obtain ⟨iter, m', e, h⟩ := C66_psolve (b := ⟨4, 2⟩) (x := ⟨6, 2⟩) (eps := 0) (N := 1) (pr := fun _ m => pure m) C56_sign_real (C47_callback_addeval (gmEx_valid 2 1) rfl)
    (fun c ⟨i, hi, j, hj, e⟩ => by rw [e]; exact (gmEx_valid 2 1).2 i hi j hj)
    (fun y m' _ _ hy _ => ⟨m', rfl, hy, fun _ _ => rfl, by rw [gmEx_one]; rfl⟩) (by decide) (hv.sep.1 .b).1.1 (hv.sep.1 .x).1.1 rfl rfl (hv.sep.2 .b .x (by simp)) (hv.sep.1 .b).1.2 (hv.sep.1 .x).1.2
    (gmEx_fresh 2 1).1 le_rfl 9 junk junk (maxiter := 2) (fuel := 2) (by omega) (by omega) (by omega) (C66_single_cycle _ le_rfl le_rfl gmEx_regular)
  exact ⟨iter, m', e, by have := h.limit; omega, h.frame⟩

/-- ten steps with one column change nothing -/
example (junk : Nat → ℝ) : solveGmres sgnReal 0 (fun alpha => addeval alpha (Mat.mk 0 2 2 2)) ⟨4, 2⟩ ⟨6, 2⟩ 22 24 26 28 9 junk junk 0 10 1 9 (gmEx 2 1) = .ok (9, gmEx 2 1) := by
  have hv := gmEx_vars 2 1
  have h0 := gmEx_min0 2 1
  rw [minRes_zero, gmEx_one] at h0
  exact C66_one_column (b := ⟨4, 2⟩) (x := ⟨6, 2⟩) (eps := 0) C56_sign_real (C47_callback_addeval (gmEx_valid 2 1) rfl)
    (fun c ⟨i, hi, j, hj, e⟩ => by rw [e]; exact (gmEx_valid 2 1).2 i hi j hj) (by decide) (hv.sep.1 .b).1.1 (hv.sep.1 .x).1.1 rfl rfl (hv.sep.2 .b .x (by simp)) (hv.sep.1 .b).1.2 (hv.sep.1 .x).1.2
    (gmEx_fresh 2 1).2 9 junk junk (maxiter := 10) (by omega) (by omega) (by omega) (by
      show _ < √(resSq 2 ((Mat.mk 0 2 2 2).val (gmEx 2 1)) id ((Vec.mk 4 2).val (gmEx 2 1)) ((Vec.mk 6 2).val (gmEx 2 1)))
      rw [h0]; simp)

example : ∃ m : Mem ℂ, m 0 = some 2 ∧ m 1 = some Complex.I := ⟨fun c => if c = 0 then some 2 else some Complex.I, rfl, rfl⟩

end H2.Props
