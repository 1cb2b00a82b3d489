import Verif.Proof.Gmres8

/-! # GMRES: the new iterate, minimal residuals -/

set_option linter.unusedSectionVars false

namespace H2.Gm
open Spec Dense Matrix QR Krylov
variable {n : Nat} {C : Nat → Prop} {b x rhat q : Vec} {qr : Mat} {m0 m : Mem ℝ} {F : GVar qr.cols → Nat → ℝ}
variable {A : Nat → Nat → ℝ} {N : Matrix (Fin n) (Fin n) ℝ} {f : AddEval ℝ} {prcd : Option (Prcd ℝ)} {sgn : ℝ → ℝ} {junk : Nat → ℝ}
variable {r : Fin n → ℝ} {B X : Nat → ℝ} {k : Nat} {st : GSt ℝ} {H : Nat → Nat → ℝ} {β : ℝ}

/-- a part of a vector -/
theorem subvec_holds (hv : GmresVars n C b x rhat q qr m0) (h : Holds (gvec b x rhat q qr) m0 F m) (s : GVar qr.cols) {o d : Nat} (ho : o + d ≤ n) {Y : Nat → ℝ} {m' : Mem ℝ}
    (hb : VecBecomes ⟨(gvec b x rhat q qr s).base + o, d⟩ m Y m') :
    Holds (gvec b x rhat q qr) m0 (Function.update F s fun i => if o ≤ i ∧ i < o + d then Y (i - o) else F s i) m' := by
  have hd := gdim hv s
  have e1 : ∀ i < n, m' ((gvec b x rhat q qr s).addr i) = some (if o ≤ i ∧ i < o + d then Y (i - o) else F s i) := fun i hi => by
    by_cases e : o ≤ i ∧ i < o + d
    · rw [if_pos e]
      have ea : (gvec b x rhat q qr s).addr i = (Vec.mk ((gvec b x rhat q qr s).base + o) d).addr (i - o) := by
        show _ + i = _ + o + (i - o); omega
      rw [ea, hb.1.some (show i - o < d by omega), hb.2.1 _ (show i - o < d by omega)]
    · rw [if_neg e, hb.2.2, h.1 _ i (by omega)]
      rintro ⟨i', hi', e'⟩
      replace hi' : i' < d := hi'
      replace e' : (gvec b x rhat q qr s).base + i = (gvec b x rhat q qr s).base + o + i' := e'
      omega
  refine h.set hv.sep ⟨fun i hi => ?_, fun i hi => ?_, fun c hc => hb.2.2 c ?_⟩
  · rw [e1 i (by omega)]; rfl
  · unfold Vec.val; rw [e1 i (by omega)]; rfl
  · rintro ⟨i', hi', e'⟩
    replace hi' : i' < d := hi'
    refine hc ⟨i' + o, by omega, ?_⟩
    rw [e']
    show _ + o + i' = _ + (i' + o); omega

theorem subvec_valid (hv : GmresVars n C b x rhat q qr m0) (h : Holds (gvec b x rhat q qr) m0 F m) (s : GVar qr.cols) {o d : Nat} (ho : o + d ≤ n) :
    (Vec.mk ((gvec b x rhat q qr s).base + o) d).Valid m ∧ ∀ i < d, (Vec.mk ((gvec b x rhat q qr s).base + o) d).val m i = F s (i + o) := by
  have hd := gdim hv s
  have key : ∀ i < d, m ((Vec.mk ((gvec b x rhat q qr s).base + o) d).addr i) = some (F s (i + o)) := fun i hi => by
    rw [← h.1 s (i + o) (by omega)]
    congr 1
    show _ + o + i = _ + (i + o); omega
  refine ⟨fun i hi => by rw [key i hi]; rfl, fun i hi => ?_⟩
  unfold Vec.val; rw [key i hi]; rfl

/-- the triangular factor -/
theorem upper_valid (hv : GmresVars n C b x rhat q qr m0) (h : Holds (gvec b x rhat q qr) m0 F m) (hk : k < n) (hc : k < qr.cols) :
    (Mat.mk (qr.base + 0 + qr.ld * 1) qr.ld k k).Valid m ∧ (∀ i < k, ∀ j < k, (Mat.mk (qr.base + 0 + qr.ld * 1) qr.ld k k).val m i j = wof qr F i (j + 1)) ∧
    ∀ s : GVar qr.cols, (∀ j, s ≠ .col j) → Disj (Mat.mk (qr.base + 0 + qr.ld * 1) qr.ld k k).Cell (gvec b x rhat q qr s).Cell := by
  have hr := hv.rows
  have hld := hv.ld
  have ea : ∀ i j (hj : j < k), (gvec b x rhat q qr (.col ⟨j + 1, by omega⟩)).addr i = (Mat.mk (qr.base + 0 + qr.ld * 1) qr.ld k k).addr i j := fun i j hj => by
    show qr.base + (j + 1) * qr.ld + i = qr.base + 0 + qr.ld * 1 + (i + j * qr.ld)
    rw [Nat.add_mul]; omega
  have key : ∀ i < k, ∀ j < k, m ((Mat.mk (qr.base + 0 + qr.ld * 1) qr.ld k k).addr i j) = some (wof qr F i (j + 1)) := fun i hi j hj => by
    rw [wof, dif_pos (show j + 1 < qr.cols by omega), ← h.1 (.col ⟨j + 1, by omega⟩) i (by rw [gdim hv]; omega), ea i j hj]
  refine ⟨⟨?_, fun i hi j hj => by rw [key i hi j hj]; rfl⟩, fun i hi j hj => ?_, fun s hs => ?_⟩
  · show k ≤ qr.ld; omega
  · unfold Mat.val; rw [key i hi j hj]; rfl
  · rintro c ⟨i, hi, j, hj, rfl⟩ hcc
    replace hi : i < k := hi
    replace hj : j < k := hj
    exact hv.sep.2 s (.col ⟨j + 1, by omega⟩) (hs _) _ hcc ⟨i, by rw [gdim hv]; omega, (ea i j hj).symm⟩

/-- the new iterate -/
theorem finishUpdate_tot (hv : GmresVars n C b x rhat q qr m0) (hk : st.k = k) (hkn : k < n) (hc : k < qr.cols) (ht : qr.cols ≤ st.tau.n) (h : Holds (gvec b x rhat q qr) m0 F st.m)
    (hd : ∀ j < k, wof qr F j (j + 1) ≠ 0) :
    Tot (finishUpdate x rhat qr st) fun m' => ∃ (F' : GVar qr.cols → Nat → ℝ) (c : Nat → ℝ), Holds (gvec b x rhat q qr) m0 F' m' ∧ F' .b = F .b ∧
      fv n (F' .x) = fv n (F .x) + ∑ j ∈ Finset.range k, c j • qc n (wof qr F) st.tau.v j ∧
      ∀ i < k, ∑ j ∈ Finset.range k, c j * (if i ≤ j then wof qr F i (j + 1) else 0) = F .rhat i := by
  have hr := hv.rows
  have d4 : rhat.dim = n := gdim hv .rhat
  unfold finishUpdate
  simp only
  rw [hk, initSubVec_ok.mpr ⟨by omega, rfl⟩, ok_bind, initSub_ok.mpr ⟨by omega, by omega, rfl⟩, ok_bind]
  obtain ⟨v1, v2, v3⟩ := upper_valid hv h hkn hc
  obtain ⟨w1, w2⟩ := subvec_valid hv h .rhat (o := 0) (d := k) (by omega)
  refine Tot.bind (trisolveVec_tot v1 w1 (fun c hc1 hc2 => v3 .rhat (by simp) c hc1 (by
    obtain ⟨i, hi, rfl⟩ := hc2
    replace hi : i < k := hi
    exact ⟨i, show i < rhat.dim by omega, rfl⟩)) le_rfl le_rfl false false false fun _ j hj => by
      replace hj : j < min k k := hj
      rw [v2 j (by omega) j (by omega)]
      exact hd j (by omega)) fun m1 _ ⟨Y, y1, y2, _⟩ => ?_
  rw [show min (Mat.mk (qr.base + 0 + qr.ld * 1) qr.ld k k).rows (Mat.mk (qr.base + 0 + qr.ld * 1) qr.ld k k).cols = k from Nat.min_self k] at y2
  have h1 := subvec_holds hv h .rhat (o := 0) (d := k) (by omega) y1
  rw [initSubVec_ok.mpr ⟨by omega, rfl⟩, ok_bind]
  obtain ⟨w3, _⟩ := subvec_valid hv h1 .rhat (o := k) (d := n - k) (by omega)
  rw [d4]
  refine Tot.bind (clearVec_tot w3) fun m2 _ h2 => ?_
  replace h2 := subvec_holds hv h1 .rhat (o := k) (d := n - k) (by omega) h2
  obtain ⟨y, hy⟩ : ∃ y : Nat → ℝ, y = fun i => if i < k then Y i else 0 := ⟨_, rfl⟩
  replace h2 : Holds (gvec b x rhat q qr) m0 (Function.update F .rhat y) m2 := h2.congr fun s i hi => by
    rw [gdim hv] at hi
    by_cases e : s = .rhat
    · subst e
      simp only [Function.update_self, hy]
      by_cases e1 : i < k
      · rw [if_neg (by omega), if_pos (by omega), if_pos e1, Nat.sub_zero]
      · rw [if_pos (by omega), if_neg e1]
    · simp only [Function.update_of_ne e]
  rw [initSub_ok.mpr ⟨by omega, by omega, rfl⟩, ok_bind]
  refine Tot.bind (qreval_holds hv h2 (p := k) (by omega) (by omega) (tau := st.tau) (by omega) (s := .rhat) (by simp) false) fun m3 _ ⟨X3, h3, e3⟩ => ?_
  rw [Function.update_idem] at h3
  rw [if_neg (by simp), Function.update_self, wof_other _ (by simp)] at e3
  refine (h3.add hv.sep (i := .rhat) (j := .x) (by simp) rfl 1).mono fun m4 h4 => ⟨_, y, h4, ?_, ?_, fun i hi => ?_⟩
  · rw [Function.update_of_ne (by simp), Function.update_of_ne (by simp)]
  · rw [Function.update_self, Function.update_self, Function.update_of_ne (by simp)]
    have e4 : fv n (fun i => F .x i + 1 * X3 i) = fv n (F .x) + fv n X3 := by funext i; simp [fv]
    rw [e4, e3]
    congr 1
    cases k with
    | zero =>
      rw [qprod, one_mulVec, Finset.sum_range_zero]
      funext i
      simp [fv, hy]
    | succ k' =>
      exact mulVec_fv (k := k') _ _ (by omega) le_rfl fun i hi => by rw [hy]; exact if_neg (by omega)
  · have := (y2 i hi).trans (w2 i hi)
    replace this : _ = F .rhat i := this
    rw [← this]
    refine Finset.sum_congr rfl fun j hj => ?_
    have hj := Finset.mem_range.mp hj
    have ey : y j = Y j := by rw [hy]; exact if_pos hj
    rw [ey]
    show _ = tri false false _ i j * Y j
    unfold tri
    rw [v2 i hi i hi, v2 i hi j hj]
    simp only [Bool.false_eq_true, if_false]
    by_cases e1 : i = j
    · subst e1
      rw [if_pos le_rfl, if_pos rfl]; ring
    · rw [if_neg e1]
      by_cases e2 : i < j
      · rw [if_pos (by omega), if_pos e2]; ring
      · rw [if_neg (by omega), if_neg e2]; ring

/-! ### Minimal residuals -/

theorem resSq_eq (y : Nat → ℝ) : resSq n A N.mulVec B y = nrm2 (res0 n A N B X - (N * mat n A) *ᵥ (fv n y - fv n X)) := by
  have e : res0 n A N B X - (N * mat n A) *ᵥ (fv n y - fv n X) = fv n (Spec.ext N.mulVec fun i => B i - mv n A y i) := by
    rw [fv_ext, res0, ← mulVec_mulVec, ← mulVec_sub, mulVec_sub (mat n A)]
    congr 1
    have : fv n (fun i => B i - mv n A y i) = fv n B - fv n (mv n A y) := rfl
    rw [this, fv_mv]; abel
  rw [e, nrm2_fv]; rfl

theorem kry_eq (R : Nat → ℝ) (l : Nat) : fv n (kry n A N.mulVec R l) = kv (N * mat n A) (N *ᵥ fv n R) l := by
  induction l with
  | zero => exact fv_ext N R
  | succ l ih =>
    show fv n (Spec.ext N.mulVec (mv n A (kry n A N.mulVec R l))) = (N * mat n A) *ᵥ _
    rw [fv_ext, fv_mv, ih, mulVec_mulVec]

theorem kry_res0 (l : Nat) : fv n (kry n A N.mulVec (fun i => B i - mv n A X i) l) = kv (N * mat n A) (res0 n A N B X) l := by
  rw [kry_eq]
  congr 2
  have : fv n (fun i => B i - mv n A X i) = fv n B - fv n (mv n A X) := rfl
  rw [this, fv_mv]

theorem inAffine_iff {y : Nat → ℝ} : InAffine n k X (kry n A N.mulVec fun i => B i - mv n A X i) y ↔ fv n y - fv n X ∈ spn (kv (N * mat n A) (res0 n A N B X)) k := by
  rw [spn_iff]
  refine exists_congr fun c => ?_
  constructor
  · intro h
    funext i
    rw [Pi.sub_apply, Finset.sum_apply]
    show y i - X i = _
    rw [h i i.2, add_sub_cancel_left]
    refine Finset.sum_congr rfl fun l _ => ?_
    rw [Pi.smul_apply, smul_eq_mul, ← kry_res0]; rfl
  · intro h i hi
    have := congrFun h ⟨i, hi⟩
    rw [Pi.sub_apply, Finset.sum_apply] at this
    replace this : y i - X i = _ := this
    rw [sub_eq_iff_eq_add'.mp this]
    congr 1
    refine Finset.sum_congr rfl fun l _ => ?_
    rw [Pi.smul_apply, smul_eq_mul, ← kry_res0]; rfl

theorem resSet_eq : {s | ∃ y, InAffine n k X (kry n A N.mulVec fun i => B i - mv n A X i) y ∧ resSq n A N.mulVec B y = s} =
    resSet (N * mat n A) (res0 n A N B X) (kv (N * mat n A) (res0 n A N B X)) k := by
  ext s
  constructor
  · rintro ⟨y, h1, h2⟩
    exact ⟨_, inAffine_iff.mp h1, by rw [← resSq_eq]; exact h2⟩
  · rintro ⟨v, h1, h2⟩
    have e : fv n (fun i => X i + if h : i < n then v ⟨i, h⟩ else 0) - fv n X = v := by
      funext i
      show X i + (if h : i.1 < n then v ⟨i, h⟩ else 0) - X i = v i
      rw [dif_pos i.2]; ring
    refine ⟨fun i => X i + if h : i < n then v ⟨i, h⟩ else 0, inAffine_iff.mpr (by rw [e]; exact h1), ?_⟩
    rw [resSq_eq (X := X), e]; exact h2

theorem minRes_eq {s : ℝ} (h : IsLeast (resSet (N * mat n A) (res0 n A N B X) (kv (N * mat n A) (res0 n A N B X)) k) s) : minRes n A N.mulVec B X k = s := by
  unfold minRes
  rw [resSet_eq]
  exact h.csInf_eq

theorem minRes_ge {s : ℝ} (h : ∀ v ∈ spn (kv (N * mat n A) (res0 n A N B X)) k, s ≤ nrm2 (res0 n A N B X - (N * mat n A) *ᵥ v)) : s ≤ minRes n A N.mulVec B X k := by
  unfold minRes
  rw [resSet_eq]
  exact le_csInf ⟨_, 0, Submodule.zero_mem _, rfl⟩ (by rintro _ ⟨v, hv, rfl⟩; exact h v hv)

theorem minRes_nonneg : 0 ≤ minRes n A N.mulVec B X k := minRes_ge fun _ _ => Finset.sum_nonneg fun _ _ => sq_nonneg _

end H2.Gm
