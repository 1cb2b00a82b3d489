import Verif.Proof.QR3

/-! # The pivoted decompositions -/

set_option linter.unusedSectionVars false

namespace H2.QR
open Spec Dense Matrix
variable {𝕜 : Type} [RCLike 𝕜] {n : Nat}

theorem nrm2_col (W : Nat → Nat → 𝕜) (j : Nat) : nrm2 (col n W j) = tail2 n W 0 j := by
  rw [tail2_fin]
  unfold nrm2 col
  exact Finset.sum_congr rfl fun i _ => by rw [if_pos (Nat.zero_le _)]

theorem tail2_cons (W : Nat → Nat → 𝕜) {l k : Nat} (hl : l ≤ k) (hk : k ≤ n) (j : Nat) :
    tail2 n W l j = ∑ i ∈ Finset.Ico l k, ‖W i j‖ ^ 2 + tail2 n W k j := (Finset.sum_Ico_consecutive _ hl hk).symm

/-- what a reflection step does to the columns -/
structure Turned (n c k : Nat) (W W' : Nat → Nat → 𝕜) : Prop where
  old : ∀ j < k, ∀ i, W' i j = W i j
  top : ∀ i < k, ∀ j, W' i j = W i j
  diag : ‖W' k k‖ ^ 2 = tail2 n W k k
  tail : ∀ j, k < j → j < c → tail2 n W' k j = tail2 n W k j

theorem turned_houseF {c k : Nat} {W : Nat → Nat → 𝕜} (hn : k < n) {e : ℝ} {sgn : 𝕜 → 𝕜} (hs : SignFn e sgn) (hpos : 0 < tail2 n W k k) :
    Turned n c k W (QR.houseF sgn n c k (tail2 n W k k) W).2 := by
  obtain ⟨N, hN⟩ : ∃ N, N = tail2 n W k k := ⟨_, rfl⟩
  obtain ⟨W', hW'⟩ : ∃ W', W' = (QR.houseF sgn n c k (tail2 n W k k) W).2 := ⟨_, rfl⟩
  have htop : ∀ i < k, ∀ j, W' i j = W i j := fun i hi j => by
    rw [hW']
    simp only [QR.houseF]
    by_cases e : j = k
    · rw [if_pos e, if_pos hi, e]
    · rw [if_neg e]
      split_ifs
      · unfold hfun; rw [if_neg (by omega)]
      · rfl
  rw [← hW']
  refine ⟨fun j hj i => ?_, htop, ?_, fun j hj hjc => ?_⟩
  · rw [hW']
    simp only [QR.houseF]
    rw [if_neg (by omega), if_neg (by omega)]
  · rw [hW']
    simp only [QR.houseF]
    rw [if_pos trivial, if_neg (lt_irrefl _), if_pos trivial, norm_mul, norm_neg, hs.unit, RCLike.norm_ofReal, one_mul, sq_abs, Real.sq_sqrt hpos.le]
  · obtain ⟨V, hV⟩ : ∃ V : Nat → Nat → 𝕜, V = fun i _ => W i k * (star (sgn (W k k)) / ((‖W k k‖ + √(tail2 n W k k) : ℝ) : 𝕜)) := ⟨_, rfl⟩
    obtain ⟨b1, -⟩ := house_numbers (V := V) hn (hs.unit (W k k)) rfl hpos rfl (fun i _ _ => by rw [hV])
    have hm := refl_mem (v := hvec n V k) (by rw [RCLike.star_def, RCLike.conj_ofReal]) (.inr b1)
    have e1 : col n W' j = reflector (hvec n V k) (QR.houseF sgn n c k (tail2 n W k k) W).1 *ᵥ col n W j := by
      refine Eq.trans ?_ (hfun_refl (V := V) hn _ (fun i => W i j))
      funext i
      unfold col
      rw [hW', hV]
      simp only [QR.houseF]
      rw [if_neg (by omega), if_pos hj]
    have e2 : nrm2 (col n W' j) = nrm2 (col n W j) := by rw [e1]; exact nrm2_mulVec hm _
    rw [nrm2_col, nrm2_col, tail2_cons W' (Nat.zero_le k) hn.le, tail2_cons W (Nat.zero_le k) hn.le,
      Finset.sum_congr rfl (fun i hi => by rw [htop i (Finset.mem_Ico.mp hi).2 j])] at e2
    exact add_left_cancel e2

/-- Every diagonal entry dominates the remaining columns. -/
def Dom (n c : Nat) (tiny : ℝ) (k : Nat) (W : Nat → Nat → 𝕜) : Prop :=
  ∀ l < k, ∀ j, l ≤ j → j < c → ∑ i ∈ Finset.Ico l (if j < k then j + 1 else n), ‖W i j‖ ^ 2 ≤ max (‖W l l‖ ^ 2) tiny

theorem Dom.swap {c : Nat} {tiny : ℝ} {k q : Nat} {W : Nat → Nat → 𝕜} (h : Dom n c tiny k W) (hk : k < c) (hkq : k ≤ q) (hq : q < c) :
    Dom n c tiny k (fun i x => W i (Equiv.swap k q x)) := by
  intro l hl j hj hjc
  have hx : ∀ x < k, Equiv.swap k q x = x := fun x hx => Equiv.swap_apply_of_ne_of_ne (by omega) (by omega)
  simp only [hx l hl]
  by_cases e : j < k
  · rw [hx j e]; exact h l hl j hj hjc
  · have e1 : ¬ Equiv.swap k q j < k := by have := swap_ge le_rfl hkq (show k ≤ j by omega); omega
    have := h l hl (Equiv.swap k q j) (by omega) (swap_lt hk hq hjc)
    rw [if_neg e1] at this
    rw [if_neg e]; exact this

theorem Dom.skip {c : Nat} {tiny : ℝ} {k : Nat} {W : Nat → Nat → 𝕜} (h : Dom n c tiny k W) (hn : k < n) 
    (hmax : ∀ j, k ≤ j → j < c → tail2 n W k j ≤ tail2 n W k k) (hs : tail2 n W k k ≤ tiny) : Dom n c tiny (k + 1) W := by
  intro l hl j hj hjc
  by_cases e : l = k
  · subst e
    refine le_trans ?_ (((hmax j hj hjc).trans hs).trans (le_max_right _ _))
    refine Finset.sum_le_sum_of_subset_of_nonneg (Finset.Ico_subset_Ico_right ?_) fun _ _ _ => sq_nonneg _
    split_ifs <;> omega
  · refine le_trans ?_ (h l (by omega) j hj hjc)
    refine Finset.sum_le_sum_of_subset_of_nonneg (Finset.Ico_subset_Ico_right ?_) fun _ _ _ => sq_nonneg _
    split_ifs <;> omega

theorem Dom.house {c : Nat} {tiny : ℝ} {k : Nat} {W W' : Nat → Nat → 𝕜} (h : Dom n c tiny k W) (hn : k < n) 
    (hmax : ∀ j, k ≤ j → j < c → tail2 n W k j ≤ tail2 n W k k) (ht : Turned n c k W W') : Dom n c tiny (k + 1) W' := by
  have key : ∀ l ≤ k, ∀ j, k ≤ j → j < c → ∑ i ∈ Finset.Ico l (if j < k + 1 then j + 1 else n), ‖W' i j‖ ^ 2 = tail2 n W l j := fun l hl j hj hjc => by
    rw [tail2_cons W hl hn.le]
    have e : ∀ i ∈ Finset.Ico l k, ‖W' i j‖ ^ 2 = ‖W i j‖ ^ 2 := fun i hi => by rw [ht.top i (Finset.mem_Ico.mp hi).2 j]
    by_cases e1 : j = k
    · subst e1
      rw [if_pos (by omega), Finset.sum_Ico_succ_top hl, ht.diag, Finset.sum_congr rfl e]
    · rw [if_neg (by omega), ← ht.tail j (by omega) hjc, ← Finset.sum_congr rfl e]
      exact (Finset.sum_Ico_consecutive _ hl hn.le).symm
  intro l hl j hj hjc
  by_cases e : l = k
  · subst e
    rw [key l le_rfl j hj hjc, ht.diag]
    exact (hmax j hj hjc).trans (le_max_left _ _)
  · rw [ht.old l (by omega)]
    by_cases e1 : j < k
    · have := h l (by omega) j hj hjc
      rw [if_pos e1] at this
      rw [if_pos (by omega), Finset.sum_congr rfl fun i _ => by rw [ht.old j e1]]
      exact this
    · have := h l (by omega) j hj hjc
      rw [if_neg e1] at this
      rw [key l (by omega) j (by omega) hjc]
      exact this

theorem qrdecompPivot_tot {sgn : 𝕜 → 𝕜} {e tiny : ℝ} (hs : SignFn e sgn) (htiny : 0 ≤ tiny) (junk : Nat → 𝕜) {a : Mat} (tau : Arr 𝕜) 
    {piv : Option (Arr Nat)} {c : Nat} (hcc : a.cols ≤ c) (hp : PivOk c piv) {m : Mem 𝕜} (ha : a.Valid m) :
    Tot (qrdecompPivot sgn tiny junk a tau piv m) fun r => r.1 = min a.rows a.cols ∧ min a.rows a.cols ≤ r.2.tau.n ∧
      (tau.n ≥ min a.rows a.cols → r.2.tau.n = tau.n) ∧ (r.2.piv = none ↔ piv = none) ∧ PivOk c r.2.piv ∧
      ∃ p W, ColPerm a.cols p ∧ Recorded a.cols p r.2.piv ∧ MatBecomes a m W r.2.mem ∧
        QInv a.rows a.cols (fun i j => a.val m i (p j)) (max tiny e) (min a.rows a.cols) W r.2.tau.v ∧ Dom a.rows a.cols tiny (min a.rows a.cols) W := by
  unfold qrdecompPivot
  simp only
  obtain ⟨tau0, ht0⟩ : ∃ t, t = (if tau.n < min a.rows a.cols then resizeTau junk tau (min a.rows a.cols) else tau) := ⟨_, rfl⟩
  have hn0 : min a.rows a.cols ≤ tau0.n := ht0 ▸ tau_n junk tau _
  have hn1 : tau.n ≥ min a.rows a.cols → tau0.n = tau.n := fun h => by rw [ht0, if_neg (by omega)]
  rw [← ht0]
  refine Tot.bind (initPiv_tot hcc hp) fun piv0 _ hp0 => ?_
  refine Tot.bind (P := fun (st : QSt 𝕜) => st.tau.n = tau0.n ∧ (st.piv = none ↔ piv = none) ∧ PivOk c st.piv ∧
      ∃ p W, ColPerm a.cols p ∧ Recorded a.cols p st.piv ∧ MatBecomes a m W st.mem ∧
        QInv a.rows a.cols (fun i j => a.val m i (p j)) (max tiny e) (min a.rows a.cols) W st.tau.v ∧ Dom a.rows a.cols tiny (min a.rows a.cols) W)
    (forUp_tot (fun k (st : QSt 𝕜) => st.tau.n = tau0.n ∧ (st.piv = none ↔ piv = none) ∧ PivOk c st.piv ∧
      ∃ p W, ColPerm a.cols p ∧ Recorded a.cols p st.piv ∧ MatBecomes a m W st.mem ∧
        QInv a.rows a.cols (fun i j => a.val m i (p j)) (max tiny e) k W st.tau.v ∧ Dom a.rows a.cols tiny k W)
      (Nat.zero_le _) ⟨rfl, hp0.2.2, hp0.2.1, fun x => x, a.val m, ⟨fun _ h => h, fun _ _ _ _ h => h⟩, hp0.1, becomes_self ha, QInv.init _ _ _ _ _,
        fun l hl => by omega⟩ ?_) ?_
  · rintro k st - hk ⟨h1, h2, h3, p, W, h4, h5, h6, h7, h8⟩
    have hr : k < a.rows := by omega
    have hc : k < a.cols := by omega
    refine Tot.bind (pivSearch_tot h6 hr.le hc) fun s _ hS => ?_
    obtain ⟨s1, s2, s3, s4, -⟩ := hS
    refine Tot.bind (pivSwap_tot h6 hc s2 hcc h5 h3) fun st1 _ h9 => ?_
    obtain ⟨g1, g2, g3, g4, g5⟩ := h9
    have hp' := isPerm_swap h4 hc s2
    have hQ := h7.swap hc s1 s2
    have hD := h8.swap hc s1 s2
    obtain ⟨W1, hW1⟩ : ∃ W1, W1 = fun i x => W i (Equiv.swap k s.jmax x) := ⟨_, rfl⟩
    rw [← hW1] at g2 hQ hD
    have hN : s.maxnorm2 = tail2 a.rows W1 k k := by
      rw [s3, hW1]; unfold tail2; simp only [Equiv.swap_apply_left]
    have hM : ∀ j, k ≤ j → j < a.cols → tail2 a.rows W1 k j ≤ tail2 a.rows W1 k k := fun j j1 j2 => by
      rw [← hN, hW1]
      exact s4 _ (swap_ge le_rfl s1 j1) (swap_lt hc s2 j2)
    beta_reduce
    rw [hN]
    by_cases hsm : tail2 a.rows W1 k k ≤ tiny
    · rw [if_pos hsm, Arr.set_ok (show k < st1.tau.n by rw [g1]; omega), ok_bind]
      refine ⟨_, rfl, (by show st1.tau.n = _; rw [g1, h1]), g5.trans h2, g4, _, W1, hp', g3, g2, ?_, hD.skip hr hM hsm⟩
      exact hQ.skip hc hr (fun l hl => by simp only; rw [if_neg (by omega), g1]) (if_pos rfl) (hsm.trans (le_max_left _ _))
    · rw [if_neg hsm]
      have hpos : 0 < tail2 a.rows W1 k k := lt_of_le_of_lt htiny (not_le.mp hsm)
      refine Tot.bind (houseStep_tot sgn hr hc _ g2) ?_
      rintro ⟨b, m2⟩ - ⟨k4, k5⟩
      simp only at k4 k5 ⊢
      rw [Arr.set_ok (show k < st1.tau.n by rw [g1]; omega), ok_bind]
      refine ⟨_, rfl, (by show st1.tau.n = _; rw [g1, h1]), g5.trans h2, g4, _, _, hp', g3, k5, ?_, hD.house hr hM (turned_houseF hr hs hpos)⟩
      exact hQ.houseF hc hr hs (le_max_right _ _) hpos (fun l hl => by simp only; rw [if_neg (by omega), g1]) (by simp [k4])
  · rintro st - ⟨h1, h2, h3, h4⟩
    exact ⟨_, rfl, rfl, by show _ ≤ st.tau.n; omega, fun h => by show st.tau.n = _; rw [h1]; exact hn1 h, h2, h3, h4⟩

/-! ### truncation -/

/-- stopping criterion: the tolerance that applies to the discarded part of `A` -/
def Tol (tm : Option TMode) (n c : Nat) (A : Nat → Nat → 𝕜) (eps x : ℝ) : Prop :=
  if isAbs tm then x ≤ eps * eps
  else if isFrob tm then x ≤ eps * eps * ∑ j ∈ Finset.range c, tail2 n A 0 j
  else ∀ M, 0 ≤ M → (∀ j < c, tail2 n A 0 j ≤ M) → x ≤ eps * eps * M

theorem tol_zero (tm : Option TMode) (c : Nat) (A : Nat → Nat → 𝕜) (eps : ℝ) : Tol tm n c A eps 0 := by
  unfold Tol
  have h := mul_self_nonneg eps
  split_ifs
  · exact h
  · exact mul_nonneg h (Finset.sum_nonneg fun _ _ => tail2_nonneg _ _ _)
  · exact fun M hM _ => mul_nonneg h hM

/-- the value of `firstnorm2` after the first step -/
def FirstOk (tm : Option TMode) (n c : Nat) (A : Nat → Nat → 𝕜) (f : ℝ) : Prop :=
  isAbs tm = false →
  if isFrob tm then f = ∑ j ∈ Finset.range c, tail2 n A 0 j
  else ∀ M, (∀ j < c, tail2 n A 0 j ≤ M) → f ≤ M

theorem rankLoop_tot {sgn : 𝕜 → 𝕜} {e : ℝ} (hs : SignFn e sgn) (he : 0 ≤ e) (tm : Option TMode) (eps : ℝ) {a : Mat} {m : Mem 𝕜} {c : Nat} (hcc : a.cols ≤ c)
    (piv : Option (Arr Nat)) (tn : Nat) (htn : min a.rows a.cols ≤ tn) (steps : Nat) :
    ∀ (k : Nat) (f : ℝ) (st : QSt 𝕜), k + steps = min a.rows a.cols → (k ≠ 0 → FirstOk tm a.rows a.cols (a.val m) f) → st.tau.n = tn → 
      (st.piv = none ↔ piv = none) → PivOk c st.piv →
      (∃ p W, ColPerm a.cols p ∧ Recorded a.cols p st.piv ∧ MatBecomes a m W st.mem ∧
        QInv a.rows a.cols (fun i j => a.val m i (p j)) e k W st.tau.v ∧ Dom a.rows a.cols 0 k W ∧ (k = 0 → W = a.val m)) →
    Tot (rankLoop sgn tm eps a steps k f st) fun r => r.1 ≤ min a.rows a.cols ∧ r.2.tau.n = tn ∧ (r.2.piv = none ↔ piv = none) ∧ PivOk c r.2.piv ∧
      ∃ p W, ColPerm a.cols p ∧ Recorded a.cols p r.2.piv ∧ MatBecomes a m W r.2.mem ∧
        QInv a.rows a.cols (fun i j => a.val m i (p j)) e r.1 W r.2.tau.v ∧ Dom a.rows a.cols 0 r.1 W ∧
        Tol tm a.rows a.cols (a.val m) eps (∑ j ∈ Finset.Ico r.1 a.cols, tail2 a.rows W r.1 j) := by
  induction steps with
  | zero =>
    rintro k f st hk - h1 h2 h3 ⟨p, W, h4, h5, h6, h7, h8, -⟩
    refine ⟨_, rfl, (by show k ≤ _; omega), h1, h2, h3, p, W, h4, h5, h6, h7, h8, ?_⟩
    simp only
    rw [Finset.sum_eq_zero]
    · exact tol_zero _ _ _ _
    · intro j hj
      rw [Finset.mem_Ico] at hj
      unfold tail2
      rw [Finset.Ico_eq_empty (by omega), Finset.sum_empty]
  | succ steps ih =>
    rintro k f st hk hf h1 h2 h3 ⟨p, W, h4, h5, h6, h7, h8, h80⟩
    have hr : k < a.rows := by omega
    have hc : k < a.cols := by omega
    unfold rankLoop
    refine Tot.bind (pivSearch_tot h6 hr.le hc) fun s _ hS => ?_
    obtain ⟨s1, s2, s3, s4, s5⟩ := hS
    refine Tot.bind (pivSwap_tot h6 hc s2 hcc h5 h3) fun st1 _ h9 => ?_
    obtain ⟨g1, g2, g3, g4, g5⟩ := h9
    have hp' := isPerm_swap h4 hc s2
    have hQ := h7.swap hc s1 s2
    have hD := h8.swap hc s1 s2
    obtain ⟨W1, hW1⟩ : ∃ W1, W1 = fun i x => W i (Equiv.swap k s.jmax x) := ⟨_, rfl⟩
    have hF : ∑ j ∈ Finset.Ico k a.cols, tail2 a.rows W1 k j = s.frobnorm2 := by
      rw [s5, hW1]
      have e1 : ∀ j, tail2 a.rows (fun i x => W i (Equiv.swap k s.jmax x)) k j = tail2 a.rows W k (Equiv.swap k s.jmax j) := fun j => rfl
      rw [Finset.sum_congr rfl fun j _ => e1 j]
      refine Finset.sum_bij (fun j _ => Equiv.swap k s.jmax j) (fun j hj => ?_) (fun _ _ _ _ e => (Equiv.swap k s.jmax).injective e) (fun j hj => ?_) (fun _ _ => rfl)
      · rw [Finset.mem_Ico] at hj ⊢
        exact ⟨swap_ge le_rfl s1 hj.1, swap_lt hc s2 hj.2⟩
      · rw [Finset.mem_Ico] at hj
        exact ⟨Equiv.swap k s.jmax j, Finset.mem_Ico.mpr ⟨swap_ge le_rfl s1 hj.1, swap_lt hc s2 hj.2⟩, Equiv.swap_apply_self _ _ _⟩
    rw [← hW1] at g2 hQ hD
    have hN : s.maxnorm2 = tail2 a.rows W1 k k := by
      rw [s3, hW1]; unfold tail2; simp only [Equiv.swap_apply_left]
    have hM : ∀ j, k ≤ j → j < a.cols → tail2 a.rows W1 k j ≤ tail2 a.rows W1 k k := fun j j1 j2 => by
      rw [← hN, hW1]
      exact s4 _ (swap_ge le_rfl s1 j1) (swap_lt hc s2 j2)
    simp only
    obtain ⟨dec, hdec⟩ : ∃ dec, dec = (if isAbs tm = true then (decide (s.frobnorm2 ≤ eps * eps), f)
      else if k = 0 then (false, if isFrob tm = true then s.frobnorm2 else s.maxnorm2)
      else (decide (s.frobnorm2 ≤ eps * eps * f), f)) := ⟨_, rfl⟩
    have hstop : dec.1 = true → Tol tm a.rows a.cols (a.val m) eps s.frobnorm2 := by
      intro hd
      rw [hdec] at hd
      unfold Tol
      by_cases b1 : isAbs tm = true
      · rw [if_pos b1] at hd ⊢
        exact of_decide_eq_true hd
      · rw [if_neg b1] at hd ⊢
        by_cases b2 : k = 0
        · rw [if_pos b2] at hd; cases hd
        · rw [if_neg b2] at hd
          replace hd : s.frobnorm2 ≤ eps * eps * f := of_decide_eq_true hd
          have := hf b2 (by simpa using b1)
          by_cases b3 : isFrob tm = true
          · rw [if_pos b3] at this ⊢
            rw [this] at hd; exact hd
          · rw [if_neg b3] at this ⊢
            exact fun M _ hMM => hd.trans (mul_le_mul_of_nonneg_left (this M hMM) (mul_self_nonneg _))
    have hfirst : FirstOk tm a.rows a.cols (a.val m) dec.2 := by
      intro b1
      rw [hdec, if_neg (show ¬ isAbs tm = true by simp [b1])]
      by_cases b2 : k = 0
      · rw [if_pos b2]
        simp only
        have e0 := h80 b2
        by_cases b3 : isFrob tm = true
        · rw [if_pos b3, if_pos b3, s5, b2, e0, Finset.range_eq_Ico]
        · rw [if_neg b3, if_neg b3, s3, b2, e0]
          exact fun M hMM => hMM _ s2
      · rw [if_neg b2]
        exact hf b2 b1
    rw [← hdec]
    by_cases hd : dec.1 = true
    · rw [if_pos hd]
      refine ⟨_, rfl, (by show k ≤ _; omega), (by show st1.tau.n = _; rw [g1, h1]), g5.trans h2, g4, _, W1, hp', g3, g2, ?_, hD, ?_⟩
      · rw [g1]; exact hQ
      · simp only; rw [hF]; exact hstop hd
    · rw [if_neg hd]
      rw [hN]
      by_cases hsm : tail2 a.rows W1 k k = 0
      · rw [if_pos hsm, Arr.set_ok (show k < st1.tau.n by rw [g1]; omega)]
        refine ih (k + 1) dec.2 _ (by omega) (fun _ => hfirst) (by show st1.tau.n = _; rw [g1, h1]) (g5.trans h2) g4 ⟨_, W1, hp', g3, g2, ?_, hD.skip hr hM hsm.le, fun h => by omega⟩
        exact hQ.skip hc hr (fun l hl => by simp only; rw [if_neg (by omega), g1]) (if_pos rfl) (hsm.le.trans he)
      · rw [if_neg hsm]
        have hpos : 0 < tail2 a.rows W1 k k := lt_of_le_of_ne (tail2_nonneg _ _ _) (Ne.symm hsm)
        obtain ⟨⟨b, m2⟩, hstep, k4, k5⟩ := houseStep_tot sgn hr hc (tail2 a.rows W1 k k) g2
        rw [hstep, ok_bind]
        simp only at k4 k5 ⊢
        rw [Arr.set_ok (show k < st1.tau.n by rw [g1]; omega)]
        refine ih (k + 1) dec.2 _ (by omega) (fun _ => hfirst) (by show st1.tau.n = _; rw [g1, h1]) (g5.trans h2) g4
          ⟨_, _, hp', g3, k5, ?_, hD.house hr hM (turned_houseF hr hs hpos), fun h => by omega⟩
        exact hQ.houseF hc hr hs le_rfl hpos (fun l hl => by simp only; rw [if_neg (by omega), g1]) (by simp [k4])

end H2.QR
