import Verif.Proof.Gmres7

/-! # GMRES: the rotations and the step -/

set_option linter.unusedSectionVars false

namespace H2.Gm
open Spec Dense Matrix QR Krylov
variable {n : Nat} {C : Nat → Prop} {b x rhat q : Vec} {qr : Mat} {m0 m : Mem ℝ} {F : GVar qr.cols → Nat → ℝ}
variable {A : Nat → Nat → ℝ} {N : Matrix (Fin n) (Fin n) ℝ} {f : AddEval ℝ} {prcd : Option (Prcd ℝ)} {sgn : ℝ → ℝ} {junk : Nat → ℝ}
variable {r : Fin n → ℝ} {B X : Nat → ℝ} {k : Nat} {st : GSt ℝ} {H : Nat → Nat → ℝ} {β : ℝ}

theorem rotate_tot (hv : GmresVars n C b x rhat q qr m0) (hkn : k + 1 < n) (hc : k + 1 < qr.cols) (hk : st.k = k) (h : Holds (gvec b x rhat q qr) m0 F st.m) {c s rho : ℝ} {u : Nat → ℝ}
    (hu : u = F (.col ⟨k + 1, hc⟩)) (hfind : findGivens (rots (rhos (wof qr F)) k u k) (u (k + 1)) = .ok (c, s, rho)) :
    Tot (stepRotate rhat qr st) fun st' => st'.k = k + 1 ∧ st'.tau = st.tau ∧ Holds (gvec b x rhat q qr) m0 (Function.update (Function.update F (.col ⟨k + 1, hc⟩)
      (fun i => if i = k + 1 then rho else if i = k then c * rots (rhos (wof qr F)) k u k + s * u (k + 1) else rots (rhos (wof qr F)) k u i)) .rhat
      (rot k (givensCS rho).1 (givensCS rho).2 (F .rhat))) st'.m := by
  have hr := hv.rows
  have d3 : rhat.dim = n := gdim hv .rhat
  have dc := gdim hv (.col ⟨k + 1, hc⟩)
  unfold stepRotate
  simp only
  rw [hk]
  refine Tot.bind (forUp_tot (fun i m => Holds (gvec b x rhat q qr) m0 (Function.update F (.col ⟨k + 1, hc⟩) (rots (rhos (wof qr F)) i u)) m) (Nat.zero_le k) ?_ ?_) fun m1 _ h1 => ?_
  · rw [hu]
    refine h.congr fun s' i _ => ?_
    by_cases e : s' = .col ⟨k + 1, hc⟩
    · subst e; rw [Function.update_self]; rfl
    · rw [Function.update_of_ne e]
  · intro i m' _ hi h'
    have hrd := h'.readAt (.col ⟨i + 1, by omega⟩) (i := i + 1) (by rw [gdim hv]; omega)
    rw [gaddr, Function.update_of_ne (fun e => by injection e with e; have := congrArg Fin.val e; simp only at this; omega)] at hrd
    rw [hrd, ok_bind]
    have := givens_holds hv h' (.col ⟨k + 1, hc⟩) (i := i) (by omega) (F (.col ⟨i + 1, by omega⟩) (i + 1))
    rw [gaddr, gaddr, Function.update_idem, Function.update_self] at this
    refine this.mono fun m'' h'' => ?_
    rw [rots_succ, rhos, wof, dif_pos (show i + 1 < qr.cols by omega)]
    exact h''
  have hub : rots (rhos (wof qr F)) k u (k + 1) = u (k + 1) := rots_out _ _ (by omega)
  unfold findapplyGivens
  have hra := h1.readAt (.col ⟨k + 1, hc⟩) (i := k) (by omega)
  have hrb := h1.readAt (.col ⟨k + 1, hc⟩) (i := k + 1) (by omega)
  rw [gaddr, Function.update_self] at hra hrb
  rw [hub] at hrb
  simp only [bind_assoc, pure_bind]
  rw [hra, ok_bind, hrb, ok_bind, hfind, ok_bind]
  dsimp only
  have w1 := h1.writeAt hv.sep (.col ⟨k + 1, hc⟩) (i := k) (by omega) (c * rots (rhos (wof qr F)) k u k + s * u (k + 1))
  rw [gaddr] at w1
  refine Tot.bind w1 fun m2 _ h2 => ?_
  have w2 := h2.writeAt hv.sep (.col ⟨k + 1, hc⟩) (i := k + 1) (by omega) 0
  rw [gaddr] at w2
  refine Tot.bind w2 fun m3 _ h3 => ?_
  have w3 := h3.writeAt hv.sep (.col ⟨k + 1, hc⟩) (i := k + 1) (by omega) rho
  rw [gaddr] at w3
  refine Tot.bind w3 fun m4 _ h4 => ?_
  refine Tot.bind (givens_holds hv h4 .rhat (i := k) hkn rho) fun m5 _ h5 => Tot.pure ⟨rfl, rfl, h5.congr fun s' i _ => ?_⟩
  by_cases e : s' = .rhat
  · subst e
    rw [Function.update_self, Function.update_self]
    congr 1
  · rw [Function.update_of_ne e, Function.update_of_ne e]
    by_cases e : s' = .col ⟨k + 1, hc⟩
    · subst e
      simp only [Function.update_self]
      by_cases e1 : i = k + 1
      · rw [if_pos e1, if_pos e1]
      · rw [if_neg e1, if_neg e1, if_neg e1]
    · simp only [Function.update_of_ne e]

theorem Extends.congr {M : Matrix (Fin n) (Fin n) ℝ} {W W' W'' : Nat → Nat → ℝ} {t t' u : Nat → ℝ} (h : Extends n M k W W' t t' u) (h1 : ∀ i < n, ∀ j ≤ k, W'' i j = W' i j)
    (h2 : ∀ i, k + 1 < i → i < n → W'' i (k + 1) = W' i (k + 1)) : Extends n M k W W'' t t' u := by
  have e : hvec n W'' (k + 1) = hvec n W' (k + 1) := hvec_congr fun i hi hlt => h2 i (by omega) hi
  exact ⟨h.lt, fun j hj i hi => (h1 i hi j hj).trans (h.old j hj i hi), h.tau, e ▸ h.unit, e ▸ h.new, h.sup⟩

/-- What a step computes: the column `u` of the Hessenberg matrix extends the factorization, the rotation is the one found by `findGivens`. -/
theorem step_core (hs : SignFn 0 sgn) (hf : IsAddEval f n A C m0) (hp : IsPrcdOpt prcd n N.mulVec C m0) (hv : GmresVars n C b x rhat q qr m0) (hkn : k + 1 < n) (hc : k + 1 < qr.cols)
    (h : GState n C b x rhat q qr m0 (N * mat n A) r B X k st F H β) :
    ∃ W1 t1 u, Extends n (N * mat n A) k (wof qr F) W1 st.tau.v t1 u ∧ 
      ∀ c s rho, findGivens (rots (rhos (wof qr F)) k u k) (u (k + 1)) = .ok (c, s, rho) → Tot (stepGmres sgn 0 junk f prcd rhat q qr st) fun st' => ∃ F', 
        st'.k = k + 1 ∧ qr.cols ≤ st'.tau.n ∧ Holds (gvec b x rhat q qr) m0 F' st'.m ∧ F' .b = F .b ∧ F' .x = F .x ∧ fv n (F' .q) = qc n (wof qr F') st'.tau.v (k + 1) ∧
        Extends n (N * mat n A) k (wof qr F) (wof qr F') st.tau.v st'.tau.v u ∧
        wof qr F' (k + 1) (k + 1) = rho ∧ wof qr F' k (k + 1) = c * rots (rhos (wof qr F)) k u k + s * u (k + 1) ∧ (∀ i < k, wof qr F' i (k + 1) = rots (rhos (wof qr F)) k u i) ∧
        F' .rhat = rot k (givensCS rho).1 (givensCS rho).2 (F .rhat) := by
  obtain ⟨st1, e1, F1, u, k1, t1, h1, o1, ex, hu⟩ := column_tot (junk := junk) hs hf hp hv hkn hc h
  obtain ⟨st2, e2, Z, k2, t2, h2, hZ⟩ := direction_tot hv hkn hc k1 (t1 ▸ h.htau) h1
  refine ⟨wof qr F1, st1.tau.v, u, ex, fun c s rho hfind => ?_⟩
  obtain ⟨F2, hF2⟩ : ∃ F2, F2 = Function.update F1 .q Z := ⟨_, rfl⟩
  rw [← hF2] at h2
  have wF2 : wof qr F2 = wof qr F1 := by rw [hF2, wof_other _ (by simp)]
  have eρ : rots (rhos (wof qr F1)) k = rots (rhos (wof qr F)) k := rots_ρ fun i hi => ex.old (i + 1) (by omega) (i + 1) (by omega)
  obtain ⟨u2, hu2⟩ : ∃ u2, u2 = F2 (.col ⟨k + 1, hc⟩) := ⟨_, rfl⟩
  have hu2' : ∀ i ≤ k + 1, u2 i = u i := fun i hi => by rw [hu2, hF2, Function.update_of_ne (by simp), hu i hi]
  have er : ∀ i ≤ k + 1, rots (rhos (wof qr F2)) k u2 i = rots (rhos (wof qr F)) k u i := fun i hi => by
    rw [wF2, eρ]; exact rots_congr _ (by omega) hu2' i hi
  have hfind' : findGivens (rots (rhos (wof qr F2)) k u2 k) (u2 (k + 1)) = .ok (c, s, rho) := by rw [er k (by omega), hu2' _ le_rfl]; exact hfind
  unfold stepGmres
  rw [if_neg (by rw [h.hk]; omega), e1, ok_bind, e2, ok_bind]
  refine (rotate_tot hv hkn hc k2 h2 hu2 hfind').mono fun st3 ⟨k3, t3, h3⟩ => ⟨_, k3, ?_, h3, ?_, ?_, ?_, ?_⟩
  · rw [t3, t2, t1]; exact h.htau
  · rw [Function.update_of_ne (by simp), Function.update_of_ne (by simp), hF2, Function.update_of_ne (by simp), o1 _ (by simp)]
  · rw [Function.update_of_ne (by simp), Function.update_of_ne (by simp), hF2, Function.update_of_ne (by simp), o1 _ (by simp)]
  all_goals
    rw [wof_other _ (by simp)]
  all_goals
    obtain ⟨F3, hF3⟩ : ∃ F3, F3 = Function.update F2 (.col ⟨k + 1, hc⟩)
      (fun i => if i = k + 1 then rho else if i = k then c * rots (rhos (wof qr F2)) k u2 k + s * u2 (k + 1) else rots (rhos (wof qr F2)) k u2 i) := ⟨_, rfl⟩
    rw [← hF3]
    have wF3 : ∀ i j, wof qr F3 i j = if j = k + 1 then if i = k + 1 then rho else if i = k then c * rots (rhos (wof qr F2)) k u2 k + s * u2 (k + 1) else rots (rhos (wof qr F2)) k u2 i
        else wof qr F1 i j := fun i j => by
      rw [hF3, wof_set, wF2]
    have wF3' : ∀ i, k + 1 < i → i < n → wof qr F3 i (k + 1) = wof qr F1 i (k + 1) := fun i hi hin => by
      rw [wF3, if_pos rfl, if_neg (by omega), if_neg (by omega), rots_out _ _ (by omega), hu2, hF2, Function.update_of_ne (by simp), wof, dif_pos hc]
  · rw [Function.update_of_ne (by simp), hF3, Function.update_of_ne (by simp), hF2, Function.update_self, hZ, ← hF2, ← hF3, t3, t2]
    unfold qc
    congr 1
    refine qprod_congr (fun l hl i hi hli => ?_) fun _ _ => rfl
    by_cases e : l = k + 1
    · subst e; exact (wF3' i hli hi).symm
    · rw [wF3, if_neg e]
  · rw [t3, t2]
    refine ⟨ex.congr (fun i hi j hj => by rw [wF3, if_neg (by omega)]) wF3', ?_, ?_, fun i hi => ?_, ?_⟩
    · rw [wF3, if_pos rfl, if_pos rfl]
    · rw [wF3, if_pos rfl, if_neg (by omega), if_pos rfl, er k (by omega), hu2' _ le_rfl]
    · rw [wF3, if_pos rfl, if_neg (by omega), if_neg (by omega), er i (by omega)]
    · rw [Function.update_self, hF2, Function.update_of_ne (by simp), o1 _ (by simp)]

end H2.Gm
