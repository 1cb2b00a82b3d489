import Verif.Proof.Gmres5

/-! # GMRES: the functions -/

set_option linter.unusedSectionVars false

namespace H2.Gm
open Spec Dense Matrix QR Krylov
variable {n : Nat} {C : Nat → Prop} {b x rhat q : Vec} {qr : Mat} {m0 m : Mem ℝ} {F : GVar qr.cols → Nat → ℝ}

theorem wof_set (F : GVar qr.cols → Nat → ℝ) (j : Fin qr.cols) (g : Nat → ℝ) (i l : Nat) : wof qr (Function.update F (.col j) g) i l = if l = j then g i else wof qr F i l := by
  unfold wof
  by_cases e : l = j.1
  · subst e
    rw [dif_pos j.2, if_pos rfl, Function.update_self]
  · rw [if_neg e]
    by_cases h : l < qr.cols
    · rw [dif_pos h, dif_pos h, Function.update_of_ne]
      intro h'
      injection h' with h'
      exact e (congrArg Fin.val h')
    · rw [dif_neg h, dif_neg h]

theorem wof_other (F : GVar qr.cols → Nat → ℝ) {s : GVar qr.cols} (hs : ∀ j, s ≠ .col j) (g : Nat → ℝ) : wof qr (Function.update F s g) = wof qr F := by
  funext i l
  unfold wof
  split_ifs with h
  · rw [Function.update_of_ne (fun e => hs _ e.symm)]
  · rfl

theorem fv_mv (A : Nat → Nat → ℝ) (f : Nat → ℝ) : fv n (mv n A f) = mat n A *ᵥ fv n f := by
  funext i
  show ∑ j ∈ Finset.range n, A i j * f j = ∑ j : Fin n, A i j * f j
  rw [← Fin.sum_univ_eq_sum_range (fun j => A i j * f j)]

theorem fv_ext (N : Matrix (Fin n) (Fin n) ℝ) (f : Nat → ℝ) : fv n (Spec.ext N.mulVec f) = N *ᵥ fv n f := by
  funext i
  show Spec.ext N.mulVec f i = _
  unfold Spec.ext
  rw [dif_pos i.2]; rfl

theorem fv_congr {f g : Nat → ℝ} (h : ∀ i < n, f i = g i) : fv n f = fv n g := by
  funext i; exact h i i.2

theorem column_ok (j : Fin qr.cols) : initColumn qr j = .ok (gvec b x rhat q qr (.col j)) := initColumn_ok.mpr ⟨j.2, rfl⟩

/-- The state after `k` steps: `B` is the right-hand side, `X` the vector `x`. -/
structure GState (n : Nat) (C : Nat → Prop) (b x rhat q : Vec) (qr : Mat) (m0 : Mem ℝ) (M : Matrix (Fin n) (Fin n) ℝ) (r : Fin n → ℝ) (B X : Nat → ℝ) (k : Nat) (st : GSt ℝ)
    (F : GVar qr.cols → Nat → ℝ) (H : Nat → Nat → ℝ) (β : ℝ) : Prop where
  hk : st.k = k
  htau : qr.cols ≤ st.tau.n
  hold : Holds (gvec b x rhat q qr) m0 F st.m
  hb : ∀ i < n, F .b i = B i
  hx : ∀ i < n, F .x i = X i
  hq : fv n (F .q) = qc n (wof qr F) st.tau.v k
  inv : GInv n M r k (wof qr F) st.tau.v (F .rhat) H β

variable {A : Nat → Nat → ℝ} {N : Matrix (Fin n) (Fin n) ℝ} {f : AddEval ℝ} {prcd : Option (Prcd ℝ)} {sgn : ℝ → ℝ} {junk : Nat → ℝ}

/-- residual of `X` -/
def res0 (n : Nat) (A : Nat → Nat → ℝ) (N : Matrix (Fin n) (Fin n) ℝ) (B X : Nat → ℝ) : Fin n → ℝ := N *ᵥ (fv n B - mat n A *ᵥ fv n X)

/-- initialization -/
theorem init_tot (hs : SignFn 0 sgn) (hf : IsAddEval f n A C m0) (hp : IsPrcdOpt prcd n N.mulVec C m0) (hv : GmresVars n C b x rhat q qr m0) (hn : 0 < n) (hc : 0 < qr.cols)
    {st : GSt ℝ} (ht : qr.cols ≤ st.tau.n) (h : Holds (gvec b x rhat q qr) m0 F st.m) :
    Tot (initGmres sgn 0 junk f prcd b x rhat q qr st) fun st' => ∃ F' H β, GState n C b x rhat q qr m0 (N * mat n A) (res0 n A N (F .b) (F .x)) (F .b) (F .x) 0 st' F' H β := by
  have hr := hv.rows
  have d1 : b.dim = n := gdim hv .b
  have d2 : x.dim = n := gdim hv .x
  have d3 : q.dim = n := gdim hv .q
  have d4 : rhat.dim = n := gdim hv .rhat
  unfold initGmres
  refine Tot.cassert (by rw [d1, d2]; simp) (Tot.cassert (by rw [d1, d3]; simp) (Tot.cassert (by rw [d1, hr]; simp) (Tot.cassert (by simpa using ht) ?_)))
  rw [if_neg (by omega), column_ok (b := b) (x := x) (rhat := rhat) (q := q) ⟨0, hc⟩, ok_bind]
  refine Tot.bind (h.copy hv.sep (i := .b) (j := .col ⟨0, hc⟩) (by simp) rfl) fun m1 _ h1 => ?_
  refine Tot.bind (h1.eval hf hv.sep (i := .x) (j := .col ⟨0, hc⟩) (by simp) rfl rfl (-1)) fun m2 _ h2 => ?_
  refine Tot.bind (h2.prcdOpt hp hv.sep (j := .col ⟨0, hc⟩) rfl) fun m3 _ h3 => ?_
  obtain ⟨F3, hF3⟩ : ∃ F3, F3 = Function.update F (.col ⟨0, hc⟩) (Spec.ext N.mulVec fun i => F .b i - mv n A (F .x) i) := ⟨_, rfl⟩
  replace h3 : Holds (gvec b x rhat q qr) m0 F3 m3 := by
    refine h3.congr fun s i _ => ?_
    rw [hF3]
    by_cases e : s = .col ⟨0, hc⟩
    · subst e
      rw [Function.update_self, Function.update_self, Function.update_self]
      congr 1
      funext l
      rw [Function.update_of_ne (by simp)]; ring
    · simp only [Function.update_of_ne e]
  rw [initSub_ok.mpr ⟨by omega, by omega, rfl⟩, ok_bind]
  obtain ⟨v1, v2⟩ := lead_valid hv h3 (p := 1) hc
  refine Tot.bind (qrdecomp_tot hs le_rfl junk st.tau v1) fun p _ ⟨_, t2, Y, t3, t4⟩ => ?_
  obtain ⟨tau, m4⟩ := p
  simp only at t2 t3 t4 ⊢
  have emin : min qr.rows 1 = 1 := by omega
  rw [emin, max_self] at t4
  rw [emin] at t2
  replace t2 : tau.n = st.tau.n := t2 (by omega)
  have h4 := colpart_holds hv h3 ⟨0, hc⟩ (o := 0) (by omega) t3
  simp only [Nat.zero_le, if_true, Nat.sub_zero] at h4
  obtain ⟨F4, hF4⟩ : ∃ F4, F4 = Function.update F3 (.col ⟨0, hc⟩) fun i => Y i 0 := ⟨_, rfl⟩
  rw [← hF4] at h4
  have w4 : ∀ i, wof qr F4 i 0 = Y i 0 := fun i => by rw [hF4, wof_set]; exact if_pos rfl
  obtain ⟨g1, g2⟩ := house_part (n := n) (o := 0) hn (A := fun i _ => wof qr F3 i 0) (Y := Y) (t := tau.v) (by
    rw [Nat.sub_zero]
    have := t4
    subst hr
    refine ⟨this.unit, fun j hj hjc => ?_, fun j hj hjc => by omega⟩
    obtain rfl : j = 0 := by omega
    have e := this.done 0 (by omega) (show 0 < 1 by omega)
    refine le_trans (le_of_eq ?_) e
    congr 2
    funext i
    exact (v2 i i.2 0 (by omega)).symm) (W := wof qr F4) (fun i _ _ => by rw [w4, Nat.sub_zero])
    (X := fun i => wof qr F3 i 0) (fun i _ _ => rfl)
  refine Tot.bind (h4.clear hv.sep .q) fun m5 _ h5 => ?_
  refine Tot.bind (h5.writeAt hv.sep .q (i := 0) (show 0 < q.dim by omega) 1) fun m6 _ h6 => ?_
  replace h6 : Holds (gvec b x rhat q qr) m0 (Function.update F4 .q (eu 0)) m6 := h6.congr fun s i _ => by
    by_cases e : s = .q
    · subst e; simp only [Function.update_self]; rfl
    · simp only [Function.update_of_ne e]
  refine Tot.bind (qreval_holds hv h6 (p := 1) hc (by omega) (tau := tau) (by omega) (s := .q) (by simp) false) fun m7 _ ⟨X7, h7, e7⟩ => ?_
  rw [Function.update_idem] at h7
  rw [if_neg (by simp), Function.update_self, wof_other _ (by simp)] at e7
  refine Tot.bind (h7.clear hv.sep .rhat) fun m8 _ h8 => ?_
  have hrd := h8.readAt (.col ⟨0, hc⟩) (i := 0) (by rw [gdim hv]; exact hn)
  rw [gaddr] at hrd
  rw [hrd, ok_bind]
  refine Tot.bind (h8.writeAt hv.sep .rhat (i := 0) (show 0 < rhat.dim by omega) _) fun m9 _ h9 => ?_
  refine Tot.pure ⟨Function.update (Function.update F4 .q X7) .rhat (Y 0 0 • eu 0), 0, Y 0 0, rfl, show qr.cols ≤ tau.n by omega, ?_, ?_, ?_, ?_, ?_⟩
  · refine h9.congr fun s i _ => ?_
    by_cases e : s = .rhat
    · subst e
      simp only [Function.update_self]
      rw [Function.update_of_ne (by simp), Function.update_of_ne (by simp)]
      show (if i = 0 then F4 (.col ⟨0, hc⟩) 0 else 0) = Y 0 0 * if i = 0 then 1 else 0
      rw [hF4, Function.update_self]
      split_ifs <;> simp
    · simp only [Function.update_of_ne e]
  · intro i _
    rw [Function.update_of_ne (by simp), Function.update_of_ne (by simp), hF4, Function.update_of_ne (by simp), hF3, Function.update_of_ne (by simp)]
  · intro i _
    rw [Function.update_of_ne (by simp), Function.update_of_ne (by simp), hF4, Function.update_of_ne (by simp), hF3, Function.update_of_ne (by simp)]
  · rw [Function.update_of_ne (by simp), Function.update_self, e7, wof_other _ (by simp), wof_other _ (by simp)]; rfl
  · rw [wof_other _ (by simp), wof_other _ (by simp), Function.update_self]
    refine ⟨hn, fun l hl => ?_, fun j hj => by omega, fun j hj => by omega, ?_, fun j hj => by omega, fun i _ => rfl, fun j hj => by omega, fun j hj => by omega, ?_⟩
    · obtain rfl : l = 0 := by omega
      exact g1
    · show _ = qprod n (wof qr F4) tau.v 1 *ᵥ _
      rw [qprod, qprod, Matrix.one_mul]
      have e1 : fv n (fun i => wof qr F3 i 0) = res0 n A N (F .b) (F .x) := by
        unfold res0
        rw [← fv_mv]
        refine Eq.trans ?_ (fv_ext N fun i => F .b i - mv n A (F .x) i)
        refine fv_congr fun i _ => ?_
        rw [hF3, wof_set]; exact if_pos rfl
      rw [e1] at g2
      rw [g2]
      congr 1
      refine fv_congr fun i _ => ?_
      rw [if_neg (by omega)]
      show _ = Y 0 0 * if i = 0 then 1 else 0
      split_ifs <;> simp
    · unfold spn; simp

end H2.Gm
