import Verif.Proof.Gmres10
import Verif.Proof.KrylovSolve

/-! # GMRES: the solvers -/

set_option linter.unusedSectionVars false

namespace H2.Gm
open Spec Dense Matrix QR Krylov
variable {n : Nat} {C : Nat → Prop} {b x rhat q : Vec} {qr : Mat} {m0 m : Mem ℝ} {F : GVar qr.cols → Nat → ℝ}
variable {A : Nat → Nat → ℝ} {N : Matrix (Fin n) (Fin n) ℝ} {f : AddEval ℝ} {prcd : Option (Prcd ℝ)} {sgn : ℝ → ℝ} {junk : Nat → ℝ}
variable {B X : Nat → ℝ} {k : Nat} {st : GSt ℝ} {H : Nat → Nat → ℝ} {β : ℝ}

theorem spn_zero (w : Nat → Fin n → ℝ) : spn w 0 = ⊥ := by
  unfold spn
  rw [show w '' {i | i < 0} = ∅ by simp]
  exact Submodule.span_empty

theorem minRes_zero : Spec.minRes n A N.mulVec B X 0 = resSq n A N.mulVec B X := by
  refine minRes_eq ⟨⟨0, Submodule.zero_mem _, ?_⟩, ?_⟩
  · rw [resSq_eq (X := X), sub_self]
  · rintro _ ⟨v, hv, rfl⟩
    rw [spn_zero, Submodule.mem_bot] at hv
    rw [hv, resSq_eq (X := X), sub_self]

theorem resSq_congr {B' y y' : Nat → ℝ} (hB : ∀ i < n, B i = B' i) (h : ∀ i < n, y i = y' i) : resSq n A N.mulVec B y = resSq n A N.mulVec B' y' := by
  have e : res0 n A N B 0 = res0 n A N B' 0 := by unfold res0; rw [fv_congr hB]
  rw [resSq_eq (X := 0), resSq_eq (X := 0), fv_congr h, e]

theorem iterate_zero : GmresIterate n A N.mulVec B X 0 X := by
  refine ⟨⟨0, fun i _ => by simp⟩, fun z ⟨c, hz⟩ => le_of_eq (resSq_congr (fun _ _ => rfl) fun i hi => ?_)⟩
  rw [hz i hi]; simp

theorem iterate_congr {y y' : Nat → ℝ} (h : ∀ i < n, y i = y' i) (hy : GmresIterate n A N.mulVec B X k y) : GmresIterate n A N.mulVec B X k y' :=
  ⟨inAffine_congr (fun _ _ => rfl) h hy.1, fun z hz => by rw [← resSq_congr (fun _ _ => rfl) h]; exact hy.2 z hz⟩

theorem iterate_rhs {B' X' y : Nat → ℝ} (hB : ∀ i < n, B i = B' i) (hX : ∀ i < n, X i = X' i) (hy : GmresIterate n A N.mulVec B X k y) : GmresIterate n A N.mulVec B' X' k y := by
  have e : res0 n A N B' X' = res0 n A N B X := by unfold res0; rw [fv_congr hB, fv_congr hX]
  have ka : ∀ z, InAffine n k X' (kry n A N.mulVec fun i => B' i - mv n A X' i) z ↔ InAffine n k X (kry n A N.mulVec fun i => B i - mv n A X i) z := fun z => by
    rw [inAffine_iff, inAffine_iff, e, fv_congr hX]
  refine ⟨(ka y).mpr hy.1, fun z hz => ?_⟩
  rw [← resSq_congr hB fun _ _ => rfl, ← resSq_congr hB fun _ _ => rfl]
  exact hy.2 z ((ka z).mp hz)

theorem minRes_congr {B' X' : Nat → ℝ} (hB : ∀ i < n, B i = B' i) (hX : ∀ i < n, X i = X' i) : Spec.minRes n A N.mulVec B X k = Spec.minRes n A N.mulVec B' X' k := by
  unfold Spec.minRes
  rw [resSet_eq, resSet_eq]
  have e : res0 n A N B' X' = res0 n A N B X := by unfold res0; rw [fv_congr hB, fv_congr hX]
  rw [e]

/-- The loop of the solvers. -/
theorem loop_tot (hs : SignFn 0 sgn) (hf : IsAddEval f n A C m0) (hp : IsPrcdOpt prcd n N.mulVec C m0) (hv : GmresVars n C b x rhat q qr m0) (hc : 2 ≤ qr.cols) {tol : ℝ} {maxiter : Nat} (hmax : maxiter < 2 ^ 32)
    {X0 : Nat → ℝ} (hreg : RegularRun n A N.mulVec B X0 qr.cols tol maxiter) :
    ∀ (fuel i k : Nat) (X : Nat → ℝ) (st : GSt ℝ) (F : GVar qr.cols → Nat → ℝ) (H : Nat → Nat → ℝ) (β : ℝ), i < maxiter → maxiter ≤ i + 1 + fuel → k < qr.cols →
      GmresRun n A N.mulVec B X0 qr.cols tol i X k → GState n C b x rhat q qr m0 (N * mat n A) (res0 n A N B X) B X k st F H β →
      Tot (gmresLoop sgn 0 junk f prcd b x rhat q qr tol maxiter fuel (√(Spec.minRes n A N.mulVec B X k), i, st)) fun s => ∃ X k F H β,
        s.2.1 < maxiter ∧ (√(Spec.minRes n A N.mulVec B X k) ≤ tol ∨ s.2.1 + 1 = maxiter) ∧ k < qr.cols ∧ GmresRun n A N.mulVec B X0 qr.cols tol s.2.1 X k ∧
        GState n C b x rhat q qr m0 (N * mat n A) (res0 n A N B X) B X k s.2.2 F H β := by
  intro fuel
  induction fuel with
  | zero =>
    intro i k X st F H β hi hfu hk hrun h
    unfold gmresLoop whileF
    rw [if_neg]
    · exact ⟨_, rfl, X, k, F, H, β, hi, .inr (show i + 1 = maxiter by omega), hk, hrun, h⟩
    · simp only [decide_eq_true_eq]
      intro hh
      apply hh.2
      rw [Nat.mod_eq_of_lt (by omega)]; omega
  | succ fuel ih =>
    intro i k X st F H β hi hfu hk hrun h
    have hmod : (i + 1) % 2 ^ 32 = i + 1 := Nat.mod_eq_of_lt (by omega)
    by_cases hcond : √(Spec.minRes n A N.mulVec B X k) > tol ∧ i + 1 ≠ maxiter
    · obtain ⟨h1, h2⟩ := hcond
      unfold gmresLoop whileF
      rw [if_pos (by simp only [decide_eq_true_eq]; exact ⟨h1, by rw [hmod]; exact h2⟩)]
      dsimp only
      rw [h.hk]
      have body : ∀ (X : Nat → ℝ) (k : Nat) (st : GSt ℝ) (F : GVar qr.cols → Nat → ℝ) (H : Nat → Nat → ℝ) (β : ℝ), k + 1 < qr.cols → tol < √(Spec.minRes n A N.mulVec B X k) →
          GmresRun n A N.mulVec B X0 qr.cols tol i X k → GState n C b x rhat q qr m0 (N * mat n A) (res0 n A N B X) B X k st F H β →
          Tot (do
            let st ← stepGmres sgn 0 junk f prcd rhat q qr st
            let error ← residualnormGmres rhat st.k st.m
            gmresLoop sgn 0 junk f prcd b x rhat q qr tol maxiter fuel (error, (i + 1) % 2 ^ 32, st)) fun s => ∃ X k F H β,
        s.2.1 < maxiter ∧ (√(Spec.minRes n A N.mulVec B X k) ≤ tol ∨ s.2.1 + 1 = maxiter) ∧ k < qr.cols ∧ GmresRun n A N.mulVec B X0 qr.cols tol s.2.1 X k ∧
        GState n C b x rhat q qr m0 (N * mat n A) (res0 n A N B X) B X k s.2.2 F H β := by
        intro X k st F H β hk ht hrun h
        obtain ⟨r1, r2, r3⟩ := hreg i X k hrun (by omega) hk ht
        refine Tot.bind (step_tot (junk := junk) hs hf hp hv r1 hk h r2 r3) fun st' _ ⟨F', H', β', h'⟩ => ?_
        rw [h'.residual hv, ok_bind, hmod]
        exact ih (i + 1) (k + 1) X st' F' H' β' (by omega) (by omega) hk (hrun.step ht hk) h'
      by_cases e : k + 1 ≥ qr.cols
      · rw [if_pos e]
        simp only [bind_assoc, pure_bind]
        refine Tot.bind (finish_tot (junk := junk) hs hf hp hv hk h) fun st' _ ⟨X', F', H', β', g1, g2, g3⟩ => ?_
        refine body X' 0 st' F' H' β' (by omega) ?_ (hrun.restart h1 (by omega) g1) g3
        rw [minRes_zero, g2]; exact h1
      · rw [if_neg e]
        simp only [bind_assoc, pure_bind]
        exact body X k st F H β (by omega) h1 hrun h
    · unfold gmresLoop whileF
      rw [if_neg]
      · refine ⟨_, rfl, X, k, F, H, β, hi, ?_, hk, hrun, h⟩
        by_cases e : i + 1 = maxiter
        · exact .inr e
        · exact .inl (not_lt.mp fun hh => hcond ⟨hh, e⟩)
      · simp only [decide_eq_true_eq, hmod]
        exact hcond

/-- From the initialization to the last restart. -/
theorem solve_core (hs : SignFn 0 sgn) (hf : IsAddEval f n A C m0) (hp : IsPrcdOpt prcd n N.mulVec C m0) (hv : GmresVars n C b x rhat q qr m0) (hn : 0 < n) (hc : 2 ≤ qr.cols) {tol : ℝ} {maxiter : Nat}
    (hmax : maxiter < 2 ^ 32) (hmax0 : 0 < maxiter) {B X0 : Nat → ℝ} (hB : ∀ i < n, b.val m0 i = B i) (hX : ∀ i < n, x.val m0 i = X0 i) (hreg : RegularRun n A N.mulVec B X0 qr.cols tol maxiter)
    (k0 : Nat) {tau : Arr ℝ} (ht : qr.cols ≤ tau.n) {fuel : Nat} (hfuel : maxiter ≤ fuel + 1) :
    ∃ st0 e0 e iter st1, initGmres sgn 0 junk f prcd b x rhat q qr ⟨k0, tau, m0⟩ = .ok st0 ∧ residualnormGmres rhat st0.k st0.m = .ok e0 ∧
      gmresLoop sgn 0 junk f prcd b x rhat q qr tol maxiter fuel (e0, 0, st0) = .ok (e, iter, st1) ∧ iter < maxiter ∧
      let P : GSt ℝ → Prop := fun st => ∃ F : GVar qr.cols → Nat → ℝ, Holds (gvec b x rhat q qr) m0 F st.m ∧ (∀ i < n, F .b i = B i) ∧ (√(resSq n A N.mulVec B (F .x)) ≤ tol ∨ iter + 1 = maxiter) ∧
        ∃ y k, GmresRun n A N.mulVec B X0 qr.cols tol iter y k ∧ GmresIterate n A N.mulVec B y k (F .x)
      (st1.k = 0 → P st1) ∧ Tot (finishGmres sgn 0 junk f prcd b x rhat q qr st1) P := by
  obtain ⟨st0, e0, F0, H0, β0, g0⟩ := init_tot (junk := junk) hs hf hp hv hn (by omega) (st := ⟨k0, tau, m0⟩) ht (Holds.init hv.sep)
  have hg : GState n C b x rhat q qr m0 (N * mat n A) (res0 n A N B X0) B X0 0 st0 F0 H0 β0 := by
    have e : res0 n A N (b.val m0) (x.val m0) = res0 n A N B X0 := by unfold res0; rw [fv_congr hB, fv_congr hX]
    refine ⟨g0.hk, g0.htau, g0.hold, fun i hi => (g0.hb i hi).trans (hB i hi), fun i hi => (g0.hx i hi).trans (hX i hi), g0.hq, ?_⟩
    have := g0.inv
    replace this : GInv n (N * mat n A) (res0 n A N (b.val m0) (x.val m0)) 0 (wof qr F0) st0.tau.v (F0 .rhat) H0 β0 := this
    rwa [e] at this
  obtain ⟨⟨e, iter, st1⟩, e1, X, k, F, H, β, l1, l2, l3, l4, l5⟩ := loop_tot (junk := junk) hs hf hp hv hc hmax hreg fuel 0 0 X0 st0 F0 H0 β0 hmax0 (by omega) (by omega) .start hg
  refine ⟨st0, _, e, iter, st1, e0, hg.residual hv, e1, l1, fun hk => ?_, ?_⟩
  · have hk0 : k = 0 := l5.hk.symm.trans hk
    subst hk0
    refine ⟨F, l5.hold, l5.hb, ?_, X, 0, l4, iterate_congr (fun i hi => (l5.hx i hi).symm) iterate_zero⟩
    rw [resSq_congr (fun _ _ => rfl) l5.hx, ← minRes_zero]
    exact l2
  · refine (finish_tot (junk := junk) hs hf hp hv l3 l5).mono fun st' ⟨X', F', H', β', g1, g2, g3⟩ => ⟨F', g3.hold, g3.hb, ?_, X, k, l4, iterate_congr (fun i hi => (g3.hx i hi).symm) g1⟩
    rw [resSq_congr (fun _ _ => rfl) g3.hx, g2]
    exact l2

end H2.Gm
