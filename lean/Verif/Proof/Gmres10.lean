import Verif.Proof.Gmres9

/-! # GMRES: steps, restart, ties -/

set_option linter.unusedSectionVars false

namespace H2.Gm
open Spec Dense Matrix QR Krylov
variable {n : Nat} {C : Nat → Prop} {b x rhat q : Vec} {qr : Mat} {m0 m : Mem ℝ} {F : GVar qr.cols → Nat → ℝ}
variable {A : Nat → Nat → ℝ} {N : Matrix (Fin n) (Fin n) ℝ} {f : AddEval ℝ} {prcd : Option (Prcd ℝ)} {sgn : ℝ → ℝ} {junk : Nat → ℝ}
variable {B X : Nat → ℝ} {k : Nat} {st : GSt ℝ} {H : Nat → Nat → ℝ} {β : ℝ}

theorem GState.minRes (h : GState n C b x rhat q qr m0 (N * mat n A) (res0 n A N B X) B X k st F H β) : Spec.minRes n A N.mulVec B X k = F .rhat k ^ 2 := minRes_eq h.inv.least

/-- The reported residual. -/
theorem GState.residual (hv : GmresVars n C b x rhat q qr m0) (h : GState n C b x rhat q qr m0 (N * mat n A) (res0 n A N B X) B X k st F H β) :
    residualnormGmres rhat st.k st.m = .ok (√(Spec.minRes n A N.mulVec B X k)) := by
  unfold residualnormGmres
  rw [h.hk]
  have := h.hold.readAt .rhat (i := k) (by rw [gdim hv]; exact h.inv.lt)
  replace this : st.m.read (rhat.addr k) = _ := this
  rw [this, ok_bind, h.minRes, Real.sqrt_sq_eq_abs]; rfl

/-- a regular step -/
theorem step_tot (hs : SignFn 0 sgn) (hf : IsAddEval f n A C m0) (hp : IsPrcdOpt prcd n N.mulVec C m0) (hv : GmresVars n C b x rhat q qr m0) (hkn : k + 1 < n) (hc : k + 1 < qr.cols)
    (h : GState n C b x rhat q qr m0 (N * mat n A) (res0 n A N B X) B X k st F H β)
    (h1 : Spec.minRes n A N.mulVec B X (k + 1) < Spec.minRes n A N.mulVec B X k) (h2 : 2 * Spec.minRes n A N.mulVec B X (k + 1) ≠ Spec.minRes n A N.mulVec B X k) :
    Tot (stepGmres sgn 0 junk f prcd rhat q qr st) fun st' => ∃ F' H' β', GState n C b x rhat q qr m0 (N * mat n A) (res0 n A N B X) B X (k + 1) st' F' H' β' := by
  obtain ⟨W1, t1, u, ex, hstep⟩ := step_core (junk := junk) hs hf hp hv hkn hc h
  have hm := h.minRes
  have h0 : F .rhat k ≠ 0 := by
    intro e
    rw [hm, e] at h1
    have := minRes_nonneg (n := n) (A := A) (N := N) (B := B) (X := X) (k := k + 1)
    norm_num at h1
    linarith
  obtain ⟨e1, e2⟩ := ex.next h.inv h0
  have ha : rots (rhos (wof qr F)) k u k ≠ 0 := by
    intro e
    have := minRes_ge (n := n) (A := A) (N := N) (B := B) (X := X) (k := k + 1) fun v hv => e1 v hv e
    rw [hm] at h1
    linarith
  replace e2 := minRes_eq (e2 ha)
  have hab : rots (rhos (wof qr F)) k u k ^ 2 ≠ u (k + 1) ^ 2 := by
    intro e
    apply h2
    have hp : rots (rhos (wof qr F)) k u k ^ 2 ≠ 0 := pow_ne_zero _ ha
    rw [e2, hm, ← e]
    field_simp
    ring
  obtain ⟨rho, g1, g2⟩ := findGivens_ok ha hab
  refine (hstep _ _ rho g1).mono fun st' ⟨F', k1, tt, hh, hb, hx, hq, ex', r1, r2, r3, r4⟩ => ?_
  refine ⟨F', Function.update H k u, β, k1, tt, hh, fun i hi => by rw [hb]; exact h.hb i hi, fun i hi => by rw [hx]; exact h.hx i hi, hq, ?_⟩
  have hρ : rots (rhos (wof qr F')) k = rots (rhos (wof qr F)) k := rots_ρ fun i hi => ex'.old (i + 1) (by omega) (i + 1) (by omega)
  refine ex'.step h.inv h0 ha (by rw [r1]; exact g2) (fun i hi => ?_) (fun i hi => by rw [r4, r1]) (Function.update_self _ _ _) (fun j hj => Function.update_of_ne hj _ _)
  rw [rots_succ, hρ, rot_apply, show rhos (wof qr F') k = rho from r1]
  by_cases e : i = k
  · subst e
    rw [if_pos rfl, r2, rots_out _ _ (show i < i + 1 by omega)]
  · rw [if_neg e, if_neg (by omega), r3 i (by omega)]

/-- restart after regular steps -/
theorem finish_tot (hs : SignFn 0 sgn) (hf : IsAddEval f n A C m0) (hp : IsPrcdOpt prcd n N.mulVec C m0) (hv : GmresVars n C b x rhat q qr m0) (hc : k < qr.cols)
    (h : GState n C b x rhat q qr m0 (N * mat n A) (res0 n A N B X) B X k st F H β) :
    Tot (finishGmres sgn 0 junk f prcd b x rhat q qr st) fun st' => ∃ X' F' H' β', GmresIterate n A N.mulVec B X k X' ∧ resSq n A N.mulVec B X' = Spec.minRes n A N.mulVec B X k ∧
      GState n C b x rhat q qr m0 (N * mat n A) (res0 n A N B X') B X' 0 st' F' H' β' := by
  unfold finishGmres
  have hn := h.inv.lt
  refine Tot.bind (finishUpdate_tot hv h.hk hn hc h.htau h.hold h.inv.diag) fun m1 _ ⟨F1, c, h1, hb, hx, hsys⟩ => ?_
  have e1 : fv n (F1 .x) - fv n X = ∑ j ∈ Finset.range k, c j • qc n (wof qr F) st.tau.v j := by
    rw [hx, fv_congr h.hx]; abel
  have e2 : resSq n A N.mulVec B (F1 .x) = Spec.minRes n A N.mulVec B X k := by
    rw [resSq_eq (X := X), e1, h.inv.solved hsys, h.minRes]
  have e3 : InAffine n k X (kry n A N.mulVec fun i => B i - mv n A X i) (F1 .x) := by
    rw [inAffine_iff, e1, ← h.inv.span]
    exact spn_iff.mpr ⟨c, rfl⟩
  have hB : res0 n A N (F1 .b) (F1 .x) = res0 n A N B (F1 .x) := by
    unfold res0
    rw [hb, fv_congr h.hb]
  refine (init_tot hs hf hp hv (by omega) (by omega) (st := ⟨st.k, st.tau, m1⟩) h.htau h1).mono fun st' ⟨F', H', β', g⟩ => ⟨F1 .x, F', H', β', ⟨e3, fun z hz => ?_⟩, e2, ?_⟩
  · rw [e2, h.minRes, resSq_eq (X := X)]
    exact h.inv.least.2 ⟨_, inAffine_iff.mp hz, rfl⟩
  · rw [hB] at g
    exact ⟨g.hk, g.htau, g.hold, fun i hi => by rw [g.hb i hi, hb, h.hb i hi], g.hx, g.hq, g.inv⟩

/-- a step that exactly halves the minimal squared residual, and the following restart -/
theorem tie_tot (hs : SignFn 0 sgn) (hf : IsAddEval f n A C m0) (hp : IsPrcdOpt prcd n N.mulVec C m0) (hv : GmresVars n C b x rhat q qr m0) (hkn : k + 1 < n) (hc : k + 1 < qr.cols)
    (h : GState n C b x rhat q qr m0 (N * mat n A) (res0 n A N B X) B X k st F H β)
    (h1 : 0 < Spec.minRes n A N.mulVec B X k) (h2 : 2 * Spec.minRes n A N.mulVec B X (k + 1) = Spec.minRes n A N.mulVec B X k) :
    Tot (stepGmres sgn 0 junk f prcd rhat q qr st) fun st' => st'.k = k + 1 ∧ residualnormGmres rhat st'.k st'.m = .ok 0 ∧
      Tot (finishGmres sgn 0 junk f prcd b x rhat q qr st') fun st'' => ∃ X' F' H' β', resSq n A N.mulVec B X' = Spec.minRes n A N.mulVec B X k ∧
        GState n C b x rhat q qr m0 (N * mat n A) (res0 n A N B X') B X' 0 st'' F' H' β' := by
  obtain ⟨W1, t1, u, ex, hstep⟩ := step_core (junk := junk) hs hf hp hv hkn hc h
  have hm := h.minRes
  have h0 : F .rhat k ≠ 0 := by
    intro e
    rw [hm, e] at h1
    norm_num at h1
  obtain ⟨e1, e2⟩ := ex.next h.inv h0
  have ha : rots (rhos (wof qr F)) k u k ≠ 0 := by
    intro e
    have := minRes_ge (n := n) (A := A) (N := N) (B := B) (X := X) (k := k + 1) fun v hv => e1 v hv e
    rw [hm] at h1 h2
    linarith
  replace e2 := minRes_eq (e2 ha)
  have hab : rots (rhos (wof qr F)) k u k ^ 2 = u (k + 1) ^ 2 := by
    have hp : rots (rhos (wof qr F)) k u k ^ 2 + u (k + 1) ^ 2 ≠ 0 := by
      have := sq_pos_of_ne_zero ha
      positivity
    have hq : F .rhat k ^ 2 ≠ 0 := pow_ne_zero _ h0
    rw [e2, hm] at h2
    field_simp at h2
    linarith
  obtain ⟨g1, g2⟩ := findGivens_tie hab
  refine (hstep _ _ 1 g1).mono fun st' ⟨F', k1, tt, hh, hb, hx, hq, ex', r1, r2, r3, r4⟩ => ?_
  have hW : ∀ i ≤ k, wof qr F' i (k + 1) = rots (rhos (wof qr F)) k u i := fun i hi => by
    by_cases e : i = k
    · subst e; rw [r2]; ring
    · exact r3 i (by omega)
  have hrh : ∀ i, F' .rhat i = F .rhat i := fun i => by
    rw [r4, g2, rot_apply]
    split_ifs with e e
    · subst e; ring
    · subst e; ring
    · rfl
  refine ⟨k1, ?_, ?_⟩
  · unfold residualnormGmres
    rw [k1]
    have := hh.readAt .rhat (i := k + 1) (by rw [gdim hv]; exact hkn)
    replace this : st'.m.read (rhat.addr (k + 1)) = _ := this
    rw [this, ok_bind, hrh, h.inv.rh_out hkn (by omega), norm_zero]; rfl
  · unfold finishGmres
    refine Tot.bind (finishUpdate_tot hv k1 hkn hc tt hh (fun j hj => ?_)) fun m1 _ ⟨F1, c, f1, fb, fx, hsys⟩ => ?_
    · by_cases e : j = k
      · subst e; rw [hW j le_rfl]; exact ha
      · rw [ex'.old (j + 1) (by omega) j (by omega)]; exact h.inv.diag j (by omega)
    have e3 : fv n (F1 .x) - fv n X = ∑ j ∈ Finset.range (k + 1), c j • qc n (wof qr F') st'.tau.v j := by
      rw [fx, hx, fv_congr h.hx]; abel
    have e4 : resSq n A N.mulVec B (F1 .x) = Spec.minRes n A N.mulVec B X k := by
      rw [resSq_eq (X := X), e3, ex'.tie h.inv ha hab hW (fun i _ => hrh i) hsys, hm]
    have hB : res0 n A N (F1 .b) (F1 .x) = res0 n A N B (F1 .x) := by
      unfold res0
      rw [fb, hb, fv_congr h.hb]
    refine (init_tot hs hf hp hv (by omega) (by omega) (st := ⟨st'.k, st'.tau, m1⟩) tt f1).mono fun st'' ⟨F'', H', β', g⟩ => ⟨F1 .x, F'', H', β', e4, ?_⟩
    rw [hB] at g
    exact ⟨g.hk, g.htau, g.hold, fun i hi => by rw [g.hb i hi, fb, hb, h.hb i hi], g.hx, g.hq, g.inv⟩

end H2.Gm
