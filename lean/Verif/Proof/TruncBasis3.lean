import Verif.Proof.TruncBasis2

/-! The steps of the truncation in one cluster. -/

set_option linter.unusedSectionVars false

namespace H2.TB
open Spec Svd
variable {G 𝕜 : Type} [RCLike 𝕜]

theorem stack2_tot {junk : Nat → 𝕜} {a b : VMat 𝕜} {arows brows cols : Nat} (h1 : a.rows = arows) (h2 : a.cols = cols) (h3 : b.rows = brows) (h4 : b.cols = cols) :
    Tot (stack2 junk a arows b brows cols) fun X => X.rows = arows + brows ∧ X.cols = cols ∧
      ∀ i < arows + brows, ∀ j < cols, X.e i j = if i < arows then a.e i j else b.e (i - arows) j := by
  unfold stack2
  simp only
  rw [vsub_ok (by show 0 + arows ≤ arows + brows; omega) (by show 0 + cols ≤ cols; omega), ok_bind, Tr.copyF h1 h2, ok_bind, vsub_ok (by show arows + brows ≤ arows + brows; omega) (by show 0 + cols ≤ cols; omega), ok_bind, Tr.copyF h3 h4, ok_bind]
  refine Tot.pure ⟨rfl, rfl, fun i hi j hj => ?_⟩
  rw [vglue_e, vglue_e]
  simp only
  by_cases h : i < arows
  · rw [if_neg (by omega), if_pos (by omega), if_pos h]
    rfl
  · rw [if_pos (by omega), if_neg h]
    rfl

theorem en_stack {k a b : Nat} {X A B : Nat → Nat → 𝕜} (h : ∀ i < a + b, ∀ j < k, X i j = if i < a then A i j else B (i - a) j) (x : Nat → 𝕜) :
    en k (a + b) X x = en k a A x + en k b B x := by
  unfold en vecSq
  rw [Finset.sum_range_add]
  congr 1
  · refine Finset.sum_congr rfl fun i hi => ?_
    rw [matVec_congr (N := A) fun j hj => by rw [h i (by have := Finset.mem_range.mp hi; omega) j hj, if_pos (Finset.mem_range.mp hi)]]
  · refine Finset.sum_congr rfl fun i hi => ?_
    have hi := Finset.mem_range.mp hi
    unfold matVec
    congr 2
    refine Finset.sum_congr rfl fun j hj => ?_
    rw [h (a + i) (by omega) j (Finset.mem_range.mp hj), if_neg (by omega), Nat.add_sub_cancel_left]

theorem en_weight {X Q C : VMat 𝕜} (h : QRLocal 0 X Q C) (x : Nat → 𝕜) : en X.cols C.rows C.e x = en X.cols X.rows X.e x := by
  unfold en
  rw [vecSq_congr (n := X.rows) (y := fun i => ∑ l ∈ Finset.range Q.cols, Q.e i l * matVec X.cols C.e x l) fun i hi => ?_]
  · have hO : OrthCols X.rows Q.cols Q.e := fun l hl l' hl' => by
      have := h.orth l hl l' hl'
      rwa [h.qrows] at this
    rw [vecSq_cols hO lt_range, h.crows]
    rfl
  · unfold matVec
    rw [Finset.sum_congr rfl fun j hj => by rw [h.exact i hi j (Finset.mem_range.mp hj), Finset.sum_mul]]
    simp only [Finset.mul_sum]
    rw [Finset.sum_comm]
    exact Finset.sum_congr rfl fun l _ => Finset.sum_congr rfl fun j _ => by ring

/-- energy of an optional weight -/
def enO (k : Nat) (W : Option (VMat 𝕜)) (x : Nat → 𝕜) : ℝ := match W with | none => 0 | some W => en k W.rows W.e x

section
variable {env : TrEnv 𝕜} (he : ExactEnv env)
include he

theorem weight_en (X : VMat 𝕜) : Tot (weightLocal env.toQrEnv X) fun C => C.cols = X.cols ∧ ∀ x, en X.cols C.rows C.e x = en X.cols X.rows X.e x := by
  refine (weightLocal_tot he.sgn he.tiny.ge X).mono ?_
  rintro C ⟨Q, hQ⟩
  rw [he.tiny, max_self] at hQ
  exact ⟨hQ.ccols, en_weight hQ⟩

theorem truncPre_tot {t : CRef G} {k : Nat} {W : VMat 𝕜} {clw : Option (COp G 𝕜)} (hW : W.cols = k)
    (hc : ∀ z, clw = some z → z.t = t ∧ z.kcol = k ∧ z.C.rows = z.krow ∧ z.C.cols = k) :
    Tot (truncPre env.toQrEnv t k W clw) fun W' => W'.cols = k ∧ ∀ x, en k W'.rows W'.e x = en k W.rows W.e x + locE clw k x := by
  unfold truncPre
  refine Tot.cassert (by simpa using hW) ?_
  cases clw with
  | none => exact Tot.pure ⟨hW, fun x => by show _ = _ + 0; rw [add_zero]⟩
  | some z =>
    obtain ⟨h1, h2, h3, h4⟩ := hc z rfl
    refine Tot.cassert (by rw [h1]; simp [CRef.same]) (Tot.cassert (by simpa using h2) ?_)
    refine Tot.bind (stack2_tot rfl hW h3 h4) fun X _ hX => ?_
    obtain ⟨hX1, hX2, hX3⟩ := hX
    refine (weight_en he X).mono fun W' hW' => ?_
    rw [hX2] at hW'
    refine ⟨hW'.1, fun x => ?_⟩
    rw [hW'.2, hX1, en_stack hX3]
    show _ = _ + en k z.C.rows z.C.e x
    rw [h3]

theorem truncPreO_tot {t : CRef G} {k : Nat} {W : Option (VMat 𝕜)} {clw : Option (COp G 𝕜)} (hW : ∀ w, W = some w → w.cols = k) (hn : W = none → clw = none)
    (hc : ∀ z, clw = some z → z.t = t ∧ z.kcol = k ∧ z.C.rows = z.krow ∧ z.C.cols = k) :
    Tot (truncPreO env.toQrEnv t k W clw) fun W' => (∀ w, W' = some w → w.cols = k) ∧ (W' = none ↔ W = none) ∧ ∀ x, enO k W' x = enO k W x + locE clw k x := by
  unfold truncPreO
  cases W with
  | none => exact Tot.pure ⟨fun w h => (by cases h), Iff.rfl, fun x => by rw [hn rfl]; show (0 : ℝ) = 0 + 0; rw [add_zero]⟩
  | some w =>
    refine Tot.bind (truncPre_tot he (hW w rfl) hc) fun W' _ h => Tot.pure ⟨fun w' h' => ?_, ⟨fun h => (by cases h), fun h => (by cases h)⟩, h.2⟩
    rw [← Option.some.inj h']
    exact h.1

theorem truncWeighted_tot {k : Nat} {cw : Option (COp G 𝕜)} {W : Option (VMat 𝕜)} {Vhat : VMat 𝕜} (hV : Vhat.cols = k) (hW : ∀ w, W = some w → w.cols = k)
    (hc : ∀ z, cw = some z → z.kcol = k ∧ z.C.rows = z.krow ∧ z.C.cols = k) :
    Tot (truncWeighted env.toQrEnv k cw W Vhat) fun X => X.rows = Vhat.rows ∧ ∃ Z : Nat → Nat → 𝕜, (∀ i < X.rows, ∀ j < X.cols, X.e i j = dz Vhat.e k Z i j) ∧
      (∀ (un : Prop) [Decidable un], (un → W = none ∧ cw = none) → ∀ x, enO k W x + totalSq un cw k x ≤ en k X.cols Z x) ∧
      (W ≠ none → cw = none → ∀ x, en k X.cols Z x = enO k W x) := by
  have hmul : ∀ Z : VMat 𝕜, Z.cols = k → Tot (VMat.addmul 1 false Vhat true Z (VMat.zero Vhat.rows Z.rows)) fun X => X.rows = Vhat.rows ∧ X.cols = Z.rows ∧
      ∀ i < X.rows, ∀ j < X.cols, X.e i j = dz Vhat.e k Z.e i j := by
    intro Z hZ
    refine (HV.addmul_tot (c := VMat.zero Vhat.rows Z.rows) (alpha := 1) (by simp [VMat.ocols, VMat.orows, hV, hZ]) (by simp [VMat.zero, VMat.orows]) (by simp [VMat.zero, VMat.ocols])).mono ?_
    rintro X ⟨h1, h2, h3⟩
    refine ⟨h1, h2, fun i hi j hj => ?_⟩
    rw [h1] at hi
    rw [h2] at hj
    rw [h3 i hi j hj]
    unfold dz
    simp [VMat.zero, VMat.oe, VMat.ocols, hV]
  unfold truncWeighted
  cases cw with
  | some z =>
    obtain ⟨h1, h2, h3⟩ := hc z rfl
    refine Tot.cassert (by simpa using h1) ?_
    cases W with
    | some w =>
      refine Tot.cassert (by simpa using hW w rfl) ?_
      refine Tot.bind (stack2_tot h2 h3 rfl (hW w rfl)) fun X _ hX => ?_
      obtain ⟨hX1, hX2, hX3⟩ := hX
      refine Tot.bind (weight_en he X) fun Z _ hZ => ?_
      rw [hX2] at hZ
      refine (hmul Z hZ.1).mono ?_
      rintro Y ⟨y1, y2, y3⟩
      refine ⟨y1, Z.e, y3, fun un _ _ x => ?_, fun _ h => by cases h⟩
      rw [y2, hZ.2, hX1, en_stack hX3]
      show en k w.rows w.e x + en k z.C.rows z.C.e x ≤ _
      rw [h2, add_comm]
    | none =>
      have h4 := hmul z.C h3
      rw [h2] at h4
      refine h4.mono ?_
      rintro Y ⟨y1, y2, y3⟩
      refine ⟨y1, z.C.e, y3, fun un _ _ x => ?_, fun h => absurd rfl h⟩
      show 0 + en k z.C.rows z.C.e x ≤ _
      rw [y2, h2, zero_add]
  | none =>
    cases W with
    | some w =>
      refine Tot.cassert (by simpa using hW w rfl) ?_
      refine (hmul w (hW w rfl)).mono ?_
      rintro Y ⟨y1, y2, y3⟩
      refine ⟨y1, w.e, y3, fun un _ hu x => ?_, fun _ _ x => by rw [y2]; rfl⟩
      show en k w.rows w.e x + (if un then vecSq k x else 0) ≤ _
      rw [y2, if_neg (fun h => by cases (hu h).1), add_zero]
    | none =>
      show Tot (VMat.copy false Vhat Vhat.rows k) _
      rw [Tr.copyF rfl hV]
      refine ⟨_, rfl, rfl, fun j l => if l = j then 1 else 0, fun i hi j hj => ?_, fun un _ hu x => ?_, fun h => absurd rfl h⟩
      · unfold dz
        replace hj : j < k := hj
        rw [Finset.sum_eq_single j]
        · beta_reduce; rw [if_pos rfl, star_one, mul_one]
        · intro l _ hl; beta_reduce; rw [if_neg hl, star_zero, mul_zero]
        · intro h; exact absurd (Finset.mem_range.mpr hj) h
      · have a4 : en k k (fun j l => if l = j then (1 : 𝕜) else 0) x = vecSq k x := by
          unfold en
          refine vecSq_congr fun j hj => ?_
          unfold matVec
          rw [Finset.sum_eq_single j]
          · beta_reduce; rw [if_pos rfl, one_mul]
          · intro l _ hl; beta_reduce; rw [if_neg hl, zero_mul]
          · intro h; exact absurd (Finset.mem_range.mpr hj) h
        show 0 + (if un then vecSq k x else 0) ≤ en k k _ x
        rw [a4, zero_add]
        split
        · exact le_rfl
        · exact vecSq_nonneg _ _

/-- a vanishing weight -/
theorem dz_zero {D Z : Nat → Nat → 𝕜} {k m : Nat} (h : ∀ x, en k m Z x = 0) (i : Nat) {j : Nat} (hj : j < m) : dz D k Z i j = 0 := by
  have h1 := h fun a => star (D i a)
  unfold en vecSq at h1
  rw [Finset.sum_eq_zero_iff_of_nonneg fun i _ => by positivity] at h1
  have h2 := h1 j (Finset.mem_range.mpr hj)
  rw [← dz_star, sq_eq_zero_iff, norm_eq_zero, star_eq_zero] at h2
  exact h2

theorem truncLocal_tot {tm : Option CMode} {eps : ℝ} (hp : 0 ≤ eps) {k : Nat} {Vhat X : VMat 𝕜} (hV : Vhat.cols = k) (hX : X.rows = Vhat.rows) :
    Tot (truncLocal env tm eps k Vhat X) fun r => r.1.rows = Vhat.rows ∧ r.1.cols ≤ Vhat.rows ∧ OrthCols Vhat.rows r.1.cols r.1.e ∧ r.2.rows = r.1.cols ∧ r.2.cols = k ∧
      (∀ b < r.1.cols, ∀ l < k, r.2.e b l = ∑ i ∈ Finset.range Vhat.rows, star (r.1.e i b) * Vhat.e i l) ∧
      CloseTo (tm.map CMode.mode) eps Vhat.rows X.cols X.e (fun i j => ∑ b ∈ Finset.range r.1.cols, r.1.e i b * ∑ i' ∈ Finset.range Vhat.rows, star (r.1.e i' b) * X.e i' j) ∧
      ∀ k' < r.1.cols, ∀ A B, ¬ CloseTo (tm.map CMode.mode) eps Vhat.rows X.cols X.e (lowRank k' A B) := by
  obtain ⟨sigma, u, vt, h0, h1, h2, h3, h4, h5, h6, h7⟩ := Tr.svd_get (tm.map CMode.mode) eps he X
  unfold truncLocal
  rw [h0, ok_bind]
  simp only
  refine Tot.bind h7 fun kn _ hk => ?_
  obtain ⟨hk1, hk2, hk3⟩ := hk
  have hkr : kn ≤ Vhat.rows := by rw [← hX]; omega
  rw [vsub_ok (by rw [h2, hX]; omega) (by omega), ok_bind]
  refine Tot.bind (HV.addmul_tot (c := VMat.zero kn k) (alpha := 1) (by simp [VMat.ocols, VMat.orows]) (by simp [VMat.zero, VMat.orows]) (by simp [VMat.zero, VMat.ocols, hV])) fun C _ hC => Tot.pure ?_
  obtain ⟨c1, c2, c3⟩ := hC
  rw [hX] at h6
  refine ⟨rfl, hkr, ?_, c1, c2, fun b hb l hl => ?_, ?_, fun k' hk' A B => not_close h6 hp (by simp only at hk'; omega) (hk3 k' hk') A B⟩
  · intro l hl l' hl'
    have := orth_le h6.orthU hk1 l hl l' hl'
    simpa only [Nat.zero_add] using this
  · rw [c3 b hb l hl]
    simp [VMat.zero, VMat.oe, VMat.ocols]
  · refine close_part h6 hp hk1 hk2 fun i hi j hj => ?_
    have hin : ∀ b < kn, ∑ i' ∈ Finset.range Vhat.rows, star (u.e (0 + i') (0 + b)) * X.e i' j = (sigma.v b : 𝕜) * star (star (vt.e b j)) := by
      intro b hb
      rw [Finset.sum_congr rfl fun i' hi' => by rw [h6.eq i' (Finset.mem_range.mp hi') j hj, Finset.mul_sum], Finset.sum_comm]
      rw [Finset.sum_eq_single b]
      · simp only [Nat.zero_add, mul_assoc]
        simp only [← mul_assoc]
        rw [Finset.sum_congr rfl fun i' _ => by rw [mul_assoc], ← Finset.sum_mul, h6.orthU b (by omega) b (by omega), if_pos rfl, one_mul]
      · intro l hl hlb
        simp only [Nat.zero_add, ← mul_assoc]
        rw [Finset.sum_congr rfl fun i' _ => by rw [mul_assoc], ← Finset.sum_mul, h6.orthU b (by omega) l (Finset.mem_range.mp hl), if_neg (Ne.symm hlb), zero_mul]
      · intro h; exact absurd (Finset.mem_range.mpr (by omega)) h
    unfold Svd.part
    refine Finset.sum_congr rfl fun b hb => ?_
    rw [hin b (Finset.mem_range.mp hb)]
    simp only [Nat.zero_add, mul_assoc]

theorem truncInherit_tot {zeta : ℝ} {k k1 : Nat} {W E : VMat 𝕜} (hW : W.cols = k) (hE1 : E.rows = k1) (hE2 : E.cols = k) :
    Tot (truncInherit zeta W E k1) fun W' => W'.cols = k1 ∧ ∀ x, en k1 W'.rows W'.e x = zeta ^ 2 * en k W.rows W.e (adjE E k1 x) := by
  unfold truncInherit
  refine (HV.addmul_tot (c := VMat.zero W.rows k1) (alpha := (zeta : 𝕜)) (by simp [VMat.ocols, VMat.orows, hW, hE2]) (by simp [VMat.zero, VMat.orows]) (by simp [VMat.zero, VMat.ocols, hE1])).mono ?_
  rintro Y ⟨h1, h2, h3⟩
  refine ⟨h2, fun x => ?_⟩
  rw [h1]
  unfold en vecSq
  rw [Finset.mul_sum]
  refine Finset.sum_congr rfl fun j hj => ?_
  rw [← sq_abs zeta, ← mul_pow, show |zeta| = ‖(zeta : 𝕜)‖ from (RCLike.norm_ofReal zeta).symm, ← norm_mul]
  congr 2
  unfold matVec adjE
  rw [Finset.sum_congr rfl fun a ha => by rw [h3 j (Finset.mem_range.mp hj) a (Finset.mem_range.mp ha)]]
  simp only [VMat.zero, VMat.oe, VMat.ocols, hW, Bool.false_eq_true, if_false, if_true, zero_add, Finset.mul_sum, Finset.sum_mul]
  rw [Finset.sum_comm]
  exact Finset.sum_congr rfl fun l _ => Finset.sum_congr rfl fun a _ => by ring

theorem truncInheritO_tot {zeta : ℝ} {k k1 : Nat} {W : Option (VMat 𝕜)} {E : VMat 𝕜} (hW : ∀ w, W = some w → w.cols = k) (hE1 : E.rows = k1) (hE2 : E.cols = k) :
    Tot (truncInheritO zeta W E k1) fun W' => (∀ w, W' = some w → w.cols = k1) ∧ (W' = none ↔ W = none) ∧ ∀ x, enO k1 W' x = zeta ^ 2 * enO k W (adjE E k1 x) := by
  unfold truncInheritO
  cases W with
  | none => exact Tot.pure ⟨fun w h => (by cases h), Iff.rfl, fun x => by show (0 : ℝ) = _ * 0; rw [mul_zero]⟩
  | some w =>
    refine Tot.bind (truncInherit_tot he (hW w rfl) hE1 hE2) fun W' _ h => Tot.pure ⟨fun w' h' => ?_, ⟨fun h => (by cases h), fun h => (by cases h)⟩, h.2⟩
    rw [← Option.some.inj h']
    exact h.1

end
end H2.TB
