import Verif.Proof.QR2

/-! # The decompositions -/

set_option linter.unusedSectionVars false

namespace H2.QR
open Spec Dense Matrix
variable {𝕜 : Type} [RCLike 𝕜] {n : Nat}

theorem tau_n (junk : Nat → 𝕜) (tau : Arr 𝕜) (r : Nat) : r ≤ (if tau.n < r then resizeTau junk tau r else tau).n := by
  unfold resizeTau
  split_ifs <;> first | exact le_rfl | omega

theorem qrdecomp_tot {sgn : 𝕜 → 𝕜} {e tiny : ℝ} (hs : SignFn e sgn) (htiny : 0 ≤ tiny) (junk : Nat → 𝕜) {a : Mat} (tau : Arr 𝕜) {m : Mem 𝕜} (ha : a.Valid m) :
    Tot (qrdecomp sgn tiny junk a tau m) fun p => min a.rows a.cols ≤ p.1.n ∧ (tau.n ≥ min a.rows a.cols → p.1.n = tau.n) ∧
      ∃ W, MatBecomes a m W p.2 ∧ QInv a.rows a.cols (a.val m) (max tiny e) (min a.rows a.cols) W p.1.v := by
  unfold qrdecomp
  simp only
  obtain ⟨tau0, ht0⟩ : ∃ t, t = (if tau.n < min a.rows a.cols then resizeTau junk tau (min a.rows a.cols) else tau) := ⟨_, rfl⟩
  have hn0 : min a.rows a.cols ≤ tau0.n := ht0 ▸ tau_n junk tau _
  have hn1 : tau.n ≥ min a.rows a.cols → tau0.n = tau.n := fun h => by rw [ht0, if_neg (by omega)]
  rw [← ht0]
  refine (forUp_tot (fun k (st : Arr 𝕜 × Mem 𝕜) => st.1.n = tau0.n ∧ ∃ W, MatBecomes a m W st.2 ∧ QInv a.rows a.cols (a.val m) (max tiny e) k W st.1.v)
    (Nat.zero_le _) ⟨rfl, a.val m, becomes_self ha, QInv.init _ _ _ _ _⟩ ?_).mono fun st h => ⟨by omega, fun h' => by rw [h.1]; exact hn1 h', h.2⟩
  rintro k ⟨t, m1⟩ - hk ⟨h1, W, h2, h3⟩
  simp only at h1 h2 h3 ⊢
  have hr : k < a.rows := by omega
  have hc : k < a.cols := by omega
  rw [colNorm2_ok h2 hr.le hc, ok_bind]
  by_cases hsm : tail2 a.rows W k k ≤ tiny
  · rw [if_pos hsm, Arr.set_ok (show k < t.n by omega), ok_bind]
    exact ⟨_, rfl, h1, W, h2, h3.skip hc hr (fun l hl => if_neg (by omega)) (if_pos rfl) (hsm.trans (le_max_left _ _))⟩
  · rw [if_neg hsm]
    refine Tot.bind (houseStep_tot sgn hr hc _ h2) ?_
    rintro ⟨b, m2⟩ - ⟨h4, h5⟩
    simp only at h4 h5 ⊢
    rw [Arr.set_ok (show k < t.n by omega), ok_bind]
    have hpos : 0 < tail2 a.rows W k k := lt_of_le_of_lt htiny (not_le.mp hsm)
    exact ⟨_, rfl, h1, _, h5, h3.houseF hc hr hs (le_max_right _ _) hpos (fun l hl => if_neg (by omega)) (by simp [h4])⟩

/-! ### pivoting -/

theorem swap_lt {c k j x : Nat} (hk : k < c) (hj : j < c) (hx : x < c) : Equiv.swap k j x < c := by
  rw [Equiv.swap_apply_def]
  split_ifs <;> assumption

theorem swap_ge {q k j x : Nat} (hk : q ≤ k) (hj : q ≤ j) (hx : q ≤ x) : q ≤ Equiv.swap k j x := by
  rw [Equiv.swap_apply_def]
  split_ifs <;> assumption

theorem isPerm_swap {c k j : Nat} {p : Nat → Nat} (h : ColPerm c p) (hk : k < c) (hj : j < c) : ColPerm c (fun x => p (Equiv.swap k j x)) :=
  ⟨fun x hx => h.1 _ (swap_lt hk hj hx), fun x hx y hy e => (Equiv.swap k j).injective (h.2 _ (swap_lt hk hj hx) _ (swap_lt hk hj hy) e)⟩

/-- exchanging remaining columns -/
theorem QInv.swap {c : Nat} {A : Nat → Nat → 𝕜} {err : ℝ} {k j : Nat} {W : Nat → Nat → 𝕜} {t : Nat → 𝕜} (h : QInv n c A err k W t)
    (hk : k < c) (hkj : k ≤ j) (hj : j < c) :
    QInv n c (fun i x => A i (Equiv.swap k j x)) err k (fun i x => W i (Equiv.swap k j x)) t := by
  have hx : ∀ x < k, Equiv.swap k j x = x := fun x hx => Equiv.swap_apply_of_ne_of_ne (by omega) (by omega)
  have e : qprod n (fun i x => W i (Equiv.swap k j x)) t k = qprod n W t k :=
    qprod_congr (fun l hl i _ _ => by rw [hx l hl]) fun _ _ => rfl
  refine ⟨fun l hl => ?_, fun l hl hlc => ?_, fun l hl hlc => ?_⟩
  · rw [hvec_congr (V' := W) (fun i _ _ => by rw [hx l hl])]
    exact h.unit l hl
  · have e1 : upcol n (fun i x => W i (Equiv.swap k j x)) l = upcol n W l := by
      funext i; rw [upcol_eq, upcol_eq, hx l hl]
    have e2 : col n (fun i x => A i (Equiv.swap k j x)) l = col n A l := by
      funext i; unfold col; simp only; rw [hx l hl]
    rw [e, e1, e2]; exact h.done l hl hlc
  · rw [e]
    exact h.todo _ (swap_ge le_rfl hkj hl) (swap_lt hk hj hlc)

theorem pivSearch_tot {a : Mat} {m0 m : Mem 𝕜} {W : Nat → Nat → 𝕜} (h : MatBecomes a m0 W m) {k : Nat} (hk : k ≤ a.rows) (hc : k < a.cols) :
    Tot (pivSearch a k m) fun s => k ≤ s.jmax ∧ s.jmax < a.cols ∧ s.maxnorm2 = tail2 a.rows W k s.jmax ∧
      (∀ j, k ≤ j → j < a.cols → tail2 a.rows W k j ≤ s.maxnorm2) ∧ s.frobnorm2 = ∑ j ∈ Finset.Ico k a.cols, tail2 a.rows W k j := by
  unfold pivSearch
  rw [colNorm2_ok h hk hc, ok_bind]
  refine (forUp_tot (fun r (s : PivSt) => k ≤ s.jmax ∧ s.jmax < a.cols ∧ s.maxnorm2 = tail2 a.rows W k s.jmax ∧
      (∀ j, k ≤ j → j < r → tail2 a.rows W k j ≤ s.maxnorm2) ∧ s.frobnorm2 = ∑ j ∈ Finset.Ico k r, tail2 a.rows W k j) (show k + 1 ≤ a.cols by omega) ?_ ?_)
  · refine ⟨le_rfl, hc, rfl, fun j h1 h2 => ?_, ?_⟩
    · have : j = k := by omega
      rw [this]
    · rw [Nat.Ico_succ_singleton, Finset.sum_singleton]
  · rintro j ⟨mx, fr, jm⟩ h1 h2 ⟨g1, g2, g3, g4, g5⟩
    simp only at g1 g2 g3 g4 g5 ⊢
    rw [colNorm2_ok h hk h2, ok_bind]
    have hf : fr + tail2 a.rows W k j = ∑ j ∈ Finset.Ico k (j + 1), tail2 a.rows W k j := by
      rw [Finset.sum_Ico_succ_top (by omega), g5]
    by_cases hgt : tail2 a.rows W k j > mx
    · rw [if_pos hgt]
      refine ⟨_, rfl, (show k ≤ j by omega), h2, rfl, fun l l1 l2 => ?_, hf⟩
      show tail2 a.rows W k l ≤ tail2 a.rows W k j
      by_cases e : l = j
      · rw [e]
      · exact (g4 l l1 (by omega)).trans hgt.le
    · rw [if_neg hgt]
      refine ⟨_, rfl, g1, g2, g3, fun l l1 l2 => ?_, hf⟩
      show tail2 a.rows W k l ≤ mx
      by_cases e : l = j
      · rw [e]; exact not_lt.mp hgt
      · exact g4 l l1 (by omega)

theorem swapCols_tot {a : Mat} {m0 m : Mem 𝕜} {W : Nat → Nat → 𝕜} (h : MatBecomes a m0 W m) {k j : Nat} (hk : k < a.cols) (hj : j < a.cols) (hne : j ≠ k) :
    Tot (swapCols a k j m) (MatBecomes a m0 fun i x => W i (Equiv.swap k j x)) := by
  unfold swapCols
  refine (forUp_tot (fun r m' => MatBecomes a m0 (fun i x => if i < r then W i (Equiv.swap k j x) else W i x) m') (Nat.zero_le _)
    (becomes_congr h fun i _ x _ => by rw [if_neg (by omega)]) ?_).mono fun m' h' => becomes_congr h' fun i hi x _ => by rw [if_pos hi]
  intro i m' _ hi h1
  rw [becomes_read h1 hi hk, ok_bind, becomes_read h1 hi hj, ok_bind]
  refine Tot.bind (becomes_write h1 hi hk _) fun m2 _ h2 => ?_
  refine (becomes_write h2 hi hj _).mono fun m3 h3 => becomes_congr h3 fun i' hi' x hx => ?_
  by_cases e1 : i' = i ∧ x = j
  · obtain ⟨rfl, rfl⟩ := e1
    rw [fset_same, if_neg (lt_irrefl _), if_pos (by omega), Equiv.swap_apply_right]
  · rw [fset_ne e1]
    by_cases e2 : i' = i ∧ x = k
    · obtain ⟨rfl, rfl⟩ := e2
      rw [fset_same, if_neg (lt_irrefl _), if_pos (by omega), Equiv.swap_apply_left]
    · rw [fset_ne e2]
      by_cases e3 : i' = i
      · rw [if_neg (by omega), if_pos (by omega), Equiv.swap_apply_of_ne_of_ne (by omega) (by omega)]
      · by_cases e4 : i' < i
        · rw [if_pos e4, if_pos (by omega)]
        · rw [if_neg e4, if_neg (by omega)]

/-- the pivots, if they are recorded, have room for `c` entries -/
def PivOk (c : Nat) : Option (Arr Nat) → Prop
  | none => True
  | some q => q.n = c

theorem pivSwap_tot {a : Mat} {m0 : Mem 𝕜} {W : Nat → Nat → 𝕜} {st : QSt 𝕜} (h : MatBecomes a m0 W st.mem) {k j : Nat} (hk : k < a.cols) (hj : j < a.cols)
    {p : Nat → Nat} {c : Nat} (hc : a.cols ≤ c) (hp : Recorded a.cols p st.piv) (hl : PivOk c st.piv) :
    Tot (pivSwap a k j st) fun st' => st'.tau = st.tau ∧ MatBecomes a m0 (fun i x => W i (Equiv.swap k j x)) st'.mem ∧
      Recorded a.cols (fun x => p (Equiv.swap k j x)) st'.piv ∧ PivOk c st'.piv ∧ (st'.piv = none ↔ st.piv = none) := by
  unfold pivSwap
  by_cases e : j = k
  · subst e
    rw [if_neg (by simp)]
    simp only [Equiv.swap_self, Equiv.refl_apply]
    exact ⟨_, rfl, rfl, h, hp, hl, Iff.rfl⟩
  · rw [if_pos e]
    refine Tot.bind (swapCols_tot h hk hj e) fun m1 _ h1 => ?_
    obtain ⟨tau, piv, mem⟩ := st
    simp only at hp hl h1 ⊢
    cases piv with
    | none => exact ⟨_, rfl, rfl, h1, trivial, trivial, Iff.rfl⟩
    | some q =>
      replace hl : q.n = c := hl
      replace hp : ∀ j < a.cols, q.v j = p j := hp
      unfold swapPiv
      simp only
      rw [Arr.get_ok (show k < q.n by omega), ok_bind, Arr.get_ok (show j < q.n by omega), ok_bind, Arr.set_ok (show k < q.n by omega), ok_bind,
        Arr.set_ok (a := { n := q.n, v := fun x => if x = k then q.v j else q.v x }) (show j < q.n by omega), ok_bind]
      refine ⟨_, rfl, rfl, h1, fun x hx => ?_, hl, by simp⟩
      simp only
      by_cases e1 : x = j
      · rw [if_pos e1, e1, Equiv.swap_apply_right, hp k hk]
      · rw [if_neg e1]
        by_cases e2 : x = k
        · rw [if_pos e2, e2, Equiv.swap_apply_left, hp j hj]
        · rw [if_neg e2, Equiv.swap_apply_of_ne_of_ne e2 e1, hp x hx]

theorem initPiv_tot {cols c : Nat} (hc : cols ≤ c) {piv : Option (Arr Nat)} (h : PivOk c piv) :
    Tot (initPiv cols piv) fun q => Recorded cols (fun x => x) q ∧ PivOk c q ∧ (q = none ↔ piv = none) := by
  unfold initPiv
  cases piv with
  | none => exact ⟨_, rfl, trivial, trivial, Iff.rfl⟩
  | some q =>
    replace h : q.n = c := h
    simp only
    refine Tot.bind (P := fun (q' : Arr Nat) => q'.n = c ∧ ∀ x < cols, q'.v x = x)
      (forUp_tot (fun r (q' : Arr Nat) => q'.n = c ∧ ∀ x < r, q'.v x = x) (Nat.zero_le _) ⟨h, fun x hx => by omega⟩ ?_) ?_
    · rintro j q' - hj ⟨h1, h2⟩
      rw [Arr.set_ok (show j < q'.n by omega)]
      refine ⟨_, rfl, h1, fun x hx => ?_⟩
      simp only
      by_cases e : x = j
      · rw [if_pos e, e]
      · rw [if_neg e]; exact h2 x (by omega)
    · rintro q' - ⟨h1, h2⟩
      exact ⟨_, rfl, h2, h1, by simp⟩

end H2.QR
