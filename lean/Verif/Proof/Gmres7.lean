import Verif.Proof.Gmres6

/-! # GMRES: the next column and direction -/

set_option linter.unusedSectionVars false

namespace H2.Gm
open Spec Dense Matrix QR Krylov
variable {n : Nat} {C : Nat → Prop} {b x rhat q : Vec} {qr : Mat} {m0 m : Mem ℝ} {F : GVar qr.cols → Nat → ℝ}
variable {A : Nat → Nat → ℝ} {N : Matrix (Fin n) (Fin n) ℝ} {f : AddEval ℝ} {prcd : Option (Prcd ℝ)} {sgn : ℝ → ℝ} {junk : Nat → ℝ}
variable {r : Fin n → ℝ} {B X : Nat → ℝ} {k : Nat} {st : GSt ℝ} {H : Nat → Nat → ℝ} {β : ℝ}

theorem part_valid (hv : GmresVars n C b x rhat q qr m0) (h : Holds (gvec b x rhat q qr) m0 F m) (j : Fin qr.cols) {o : Nat} :
    (Mat.mk (qr.base + o + qr.ld * j) qr.ld (qr.rows - o) 1).Valid m ∧ ∀ i, o ≤ i → i < n → (Mat.mk (qr.base + o + qr.ld * j) qr.ld (qr.rows - o) 1).val m (i - o) 0 = F (.col j) i := by
  have hr := hv.rows
  have key : ∀ i, i < n - o → m ((Mat.mk (qr.base + o + qr.ld * j) qr.ld (qr.rows - o) 1).addr i 0) = some (F (.col j) (i + o)) := fun i hi => by
    have := h.1 (.col j) (i + o) (by rw [gdim hv]; omega)
    rw [← this]
    congr 1
    show qr.base + o + qr.ld * j + (i + 0 * qr.ld) = qr.base + j * qr.ld + (i + o)
    rw [Nat.mul_comm qr.ld]; omega
  refine ⟨⟨?_, fun i hi j' hj => ?_⟩, fun i hi hin => ?_⟩
  · have := hv.ld
    show qr.rows - o ≤ qr.ld
    omega
  · replace hi : i < qr.rows - o := hi
    replace hj : j' < 1 := hj
    obtain rfl : j' = 0 := by omega
    rw [key i (by omega)]; rfl
  · unfold Mat.val
    rw [key _ (by omega), Nat.sub_add_cancel hi]; rfl

theorem column_tot (hs : SignFn 0 sgn) (hf : IsAddEval f n A C m0) (hp : IsPrcdOpt prcd n N.mulVec C m0) (hv : GmresVars n C b x rhat q qr m0) (hkn : k + 1 < n) (hc : k + 1 < qr.cols)
    (h : GState n C b x rhat q qr m0 (N * mat n A) r B X k st F H β) :
    Tot (stepColumn sgn 0 junk f prcd q qr st) fun st' => ∃ F' u, st'.k = k ∧ st'.tau.n = st.tau.n ∧ Holds (gvec b x rhat q qr) m0 F' st'.m ∧
      (∀ s, s ≠ .col ⟨k + 1, hc⟩ → F' s = F s) ∧ Extends n (N * mat n A) k (wof qr F) (wof qr F') st.tau.v st'.tau.v u ∧ ∀ i ≤ k + 1, F' (.col ⟨k + 1, hc⟩) i = u i := by
  have hr := hv.rows
  have htau := h.htau
  unfold stepColumn
  simp only
  rw [h.hk, column_ok (b := b) (x := x) (rhat := rhat) (q := q) ⟨k + 1, hc⟩, ok_bind]
  refine Tot.bind (h.hold.clear hv.sep (.col ⟨k + 1, hc⟩)) fun m1 _ h1 => ?_
  refine Tot.bind (h1.eval hf hv.sep (i := .q) (j := .col ⟨k + 1, hc⟩) (by simp) rfl rfl 1) fun m2 _ h2 => ?_
  refine Tot.bind (h2.prcdOpt hp hv.sep (j := .col ⟨k + 1, hc⟩) rfl) fun m3 _ h3 => ?_
  obtain ⟨F3, hF3⟩ : ∃ F3, F3 = Function.update F (.col ⟨k + 1, hc⟩) (Spec.ext N.mulVec (mv n A (F .q))) := ⟨_, rfl⟩
  replace h3 : Holds (gvec b x rhat q qr) m0 F3 m3 := by
    refine h3.congr fun s i _ => ?_
    rw [hF3]
    by_cases e : s = .col ⟨k + 1, hc⟩
    · subst e
      rw [Function.update_self, Function.update_self, Function.update_self, Function.update_self]
      congr 1
      funext l
      rw [Function.update_of_ne (by simp)]; ring
    · simp only [Function.update_of_ne e]
  rw [initSub_ok.mpr ⟨by omega, by omega, rfl⟩, ok_bind]
  refine Tot.bind (qreval_holds hv h3 (p := k + 1) (by omega) (by omega) (tau := st.tau) (by omega) (s := .col ⟨k + 1, hc⟩) (fun j hj e => by
    injection e with e; have := congrArg Fin.val e; simp only at this; omega) true) fun m4 _ ⟨X4, h4, e4⟩ => ?_
  rw [hF3, Function.update_idem] at h4
  have ew : ∀ j ≤ k, ∀ i, wof qr F3 i j = wof qr F i j := fun j hj i => by
    rw [hF3, wof_set, if_neg (show ¬ j = k + 1 by omega)]
  rw [if_pos rfl, qprod_congr (V' := wof qr F) (t' := st.tau.v) (fun l hl i hi _ => ew l (by omega) i) (fun _ _ => rfl), hF3, Function.update_self, fv_ext, fv_mv, show N *ᵥ mat n A *ᵥ fv n (F .q) = _ from mulVec_mulVec _ _ _, h.hq] at e4
  obtain ⟨F4, hF4⟩ : ∃ F4, F4 = Function.update F (.col ⟨k + 1, hc⟩) X4 := ⟨_, rfl⟩
  rw [← hF4] at h4
  rw [initSub_ok.mpr ⟨by omega, by omega, rfl⟩, ok_bind]
  refine Tot.cassert (by simp; omega) ?_
  obtain ⟨v1, v2⟩ := part_valid hv h4 ⟨k + 1, hc⟩ (o := k + 1)
  refine Tot.bind (qrdecomp_tot hs le_rfl junk ⟨1, fun i => st.tau.v (k + 1 + i)⟩ v1) fun p _ ⟨_, _, Y, t3, t4⟩ => ?_
  obtain ⟨tau, m5⟩ := p
  simp only at t3 t4 ⊢
  have emin : min (qr.rows - (k + 1)) 1 = 1 := by omega
  rw [emin, max_self] at t4
  have h5 := colpart_holds hv h4 ⟨k + 1, hc⟩ (o := k + 1) (by omega) t3
  obtain ⟨F5, hF5⟩ : ∃ F5, F5 = Function.update F (.col ⟨k + 1, hc⟩) fun i => if k + 1 ≤ i then Y (i - (k + 1)) 0 else X4 i := ⟨_, rfl⟩
  replace h5 : Holds (gvec b x rhat q qr) m0 F5 m5 := by
    refine h5.congr fun s i _ => ?_
    rw [hF5]
    by_cases e : s = .col ⟨k + 1, hc⟩
    · subst e
      rw [Function.update_self, Function.update_self, hF4, Function.update_self]
    · rw [Function.update_of_ne e, Function.update_of_ne e, hF4, Function.update_of_ne e]
  have w5 : ∀ i, wof qr F5 i (k + 1) = if k + 1 ≤ i then Y (i - (k + 1)) 0 else X4 i := fun i => by rw [hF5, wof_set]; exact if_pos rfl
  obtain ⟨g1, g2⟩ := house_part (n := n) (o := k + 1) hkn (A := fun i _ => X4 (i + (k + 1))) (Y := Y) (t := tau.v) (by
    subst hr
    refine ⟨t4.unit, fun j hj hjc => ?_, fun j hj hjc => by omega⟩
    obtain rfl : j = 0 := by omega
    have e := t4.done 0 (by omega) (show 0 < 1 by omega)
    refine le_trans (le_of_eq ?_) e
    congr 2
    funext i
    have := v2 (i + (k + 1)) (by omega) (by have := i.2; omega)
    rw [Nat.add_sub_cancel, hF4, Function.update_self] at this
    exact this.symm) (W := wof qr F5) (fun i hi hin => by rw [w5, if_pos (by omega)])
    (X := X4) (fun i hi _ => by rw [Nat.sub_add_cancel hi])
  refine Tot.pure ⟨F5, fun i => if i < k + 1 then X4 i else if i = k + 1 then Y 0 0 else 0, rfl, rfl, h5, fun s hs' => ?_, ⟨hkn, fun j hj i _ => ?_, fun l hl => ?_, ?_, ?_, fun i hi => ?_⟩, fun i hi => ?_⟩
  · rw [hF5, Function.update_of_ne hs']
  · rw [hF5, wof_set, if_neg (show ¬ j = k + 1 by omega)]
  · exact if_neg (by omega)
  · simp only [if_true]; exact g1
  · simp only [if_true]; rw [← g2]; exact e4.symm
  · rw [if_neg (by omega), if_neg (by omega)]
  · rw [hF5, Function.update_self]
    beta_reduce
    by_cases e : i = k + 1
    · subst e; rw [if_pos le_rfl, if_neg (by omega), if_pos rfl, Nat.sub_self]
    · rw [if_neg (by omega), if_pos (by omega)]

theorem direction_tot (hv : GmresVars n C b x rhat q qr m0) (hkn : k + 1 < n) (hc : k + 1 < qr.cols) (hk : st.k = k) (ht : qr.cols ≤ st.tau.n) (h : Holds (gvec b x rhat q qr) m0 F st.m) :
    Tot (stepDirection q qr st) fun st' => ∃ Z, st'.k = k ∧ st'.tau = st.tau ∧ Holds (gvec b x rhat q qr) m0 (Function.update F .q Z) st'.m ∧ fv n Z = qc n (wof qr F) st.tau.v (k + 1) := by
  have hr := hv.rows
  have d3 : q.dim = n := gdim hv .q
  unfold stepDirection
  rw [hk, initSub_ok.mpr ⟨by omega, by omega, rfl⟩, ok_bind]
  refine Tot.bind (h.clear hv.sep .q) fun m5 _ h5 => ?_
  refine Tot.bind (h5.writeAt hv.sep .q (i := k + 1) (show k + 1 < q.dim by omega) 1) fun m6 _ h6 => ?_
  replace h6 : Holds (gvec b x rhat q qr) m0 (Function.update F .q (eu (k + 1))) m6 := h6.congr fun s i _ => by
    by_cases e : s = .q
    · subst e; simp only [Function.update_self]; rfl
    · simp only [Function.update_of_ne e]
  refine Tot.bind (qreval_holds hv h6 (p := k + 2) (by omega) (by omega) (tau := st.tau) (by omega) (s := .q) (by simp) false) fun m7 _ ⟨X7, h7, e7⟩ => ?_
  rw [Function.update_idem] at h7
  rw [if_neg (by simp), Function.update_self, wof_other _ (by simp)] at e7
  exact Tot.pure ⟨X7, rfl, rfl, h7, e7⟩

end H2.Gm
