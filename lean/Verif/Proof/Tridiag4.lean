import Verif.Proof.Tridiag3

set_option linter.unusedSectionVars false

/-! The tridiagonalization as a whole (C72). -/

namespace H2.Eig
open Spec Krylov Matrix
open scoped Matrix.Norms.L2Operator
variable {𝕜 : Type} [RCLike 𝕜]

/-- invariant of the tridiagonalization -/
structure TdInv (n ln un : Nat) (tiny : ℝ) (A0 : Matrix (Fin n) (Fin n) 𝕜) (k : Nat) (st : TdSt 𝕜) (D : 𝕜) (w : Nat → 𝕜) : Prop where
  ar : st.A.rows = n
  ac : st.A.cols = n
  dn : st.T.d.n = n
  ln : st.T.l.n = ln
  un : st.T.u.n = un
  qr : st.Q.rows = n
  qc : st.Q.cols = n
  herm : ∀ i j, k ≤ i → i < n → k ≤ j → j < n → st.A.e i j = star (st.A.e j i)
  D1 : ‖D‖ = 1
  p1 : ‖st.psign‖ = 1
  pD : k = 0 ∨ st.T.l.v (k - 1) ≠ 0 → st.psign * D = 1
  w1 : ∀ i < k, ‖w i‖ = 1
  ww : ∀ i < k, i = 0 ∨ st.T.l.v (i - 1) ≠ 0 → w i = 1
  lu : ∀ i < k, 0 ≤ st.T.l.v i ∧ st.T.u.v i = st.T.l.v i
  uni : toK n st.Q.e * (toK n st.Q.e)ᴴ = 1
  err : ‖toK n st.Q.e * toK n (tdM k D w st.T.d.v st.T.l.v st.A.e) * (toK n st.Q.e)ᴴ - A0‖ ≤ k * (2 * √tiny)
  q0 : ∀ i < n, st.Q.e i 0 = if i = 0 then 1 else 0

theorem real_of_self {x : 𝕜} (h : x = star x) : ((RCLike.re x : ℝ) : 𝕜) = x := RCLike.conj_eq_iff_re.mp h.symm

theorem tdSkip_inv {n ln un k : Nat} {tiny : ℝ} {A0 : Matrix (Fin n) (Fin n) 𝕜} {st : TdSt 𝕜} {D : 𝕜} {w : Nat → 𝕜}
    (h : TdInv n ln un tiny A0 k st D w) (hk : k + 1 < n) (hs : ∑ i ∈ Finset.Ico (k + 1) n, ‖st.A.e i k‖ ^ 2 ≤ tiny) :
    TdInv n ln un tiny A0 (k + 1) ⟨st.A, ⟨⟨st.T.d.n, fun j => if j = k then RCLike.re (st.A.e k k) else st.T.d.v j⟩,
      ⟨st.T.u.n, fun j => if j = k then 0 else st.T.u.v j⟩, ⟨st.T.l.n, fun j => if j = k then 0 else st.T.l.v j⟩⟩, st.Q, st.psign⟩ 1
      (fun i => if i = k then st.psign * D else w i) := by
  refine ⟨h.ar, h.ac, h.dn, h.ln, h.un, h.qr, h.qc, fun i j h1 h2 h3 h4 => h.herm i j (by omega) h2 (by omega) h4, by simp, h.p1, ?_, ?_, ?_, ?_, h.uni, ?_, h.q0⟩
  · rintro (h1 | h1)
    · omega
    · exact absurd (if_pos (by omega)) h1
  · intro i hi
    beta_reduce
    split_ifs with e
    · rw [norm_mul, h.p1, h.D1, one_mul]
    · exact h.w1 i (by omega)
  · intro i hi hc
    replace hc : i = 0 ∨ (if i - 1 = k then 0 else st.T.l.v (i - 1)) ≠ 0 := hc
    beta_reduce
    have hc' : i = 0 ∨ st.T.l.v (i - 1) ≠ 0 := by
      rcases hc with hc | hc
      · exact .inl hc
      · by_cases hi0 : i = 0
        · exact .inl hi0
        · rw [if_neg (by omega)] at hc; exact .inr hc
    split_ifs with e
    · rw [e] at hc'; exact h.pD hc'
    · exact h.ww i (by omega) hc'
  · intro i hi
    show 0 ≤ (if i = k then 0 else st.T.l.v i) ∧ (if i = k then 0 else st.T.u.v i) = if i = k then 0 else st.T.l.v i
    split_ifs with e
    · exact ⟨le_refl _, rfl⟩
    · exact h.lu i (by omega)
  · have e := td_skip (n := n) (k := k) (D := D) (w := w) (w' := fun i => if i = k then st.psign * D else w i) (d := st.T.d.v)
      (d' := fun j => if j = k then RCLike.re (st.A.e k k) else st.T.d.v j) (l := st.T.l.v) (l' := fun j => if j = k then 0 else st.T.l.v j)
      (a := st.A.e) hk h.D1 (fun i hi => if_neg (by omega)) (by
        rw [if_pos rfl]; exact real_of_self (h.herm k k (le_refl _) (by omega) (le_refl _) (by omega)))
      (fun i hi => if_neg (by omega)) (if_pos rfl) (fun i hi => if_neg (by omega)) hs
    refine le_trans ?_ (show (k : ℝ) * (2 * √tiny) + 2 * √tiny ≤ ((k + 1 : ℕ) : ℝ) * (2 * √tiny) by push_cast; linarith)
    have e2 : ∀ U X Y Z : Matrix (Fin n) (Fin n) 𝕜, U * X * Uᴴ - Z = (U * Y * Uᴴ - Z) + U * (X - Y) * Uᴴ := by
      intro U X Y Z; noncomm_ring
    rw [e2 _ _ (toK n (tdM k D w st.T.d.v st.T.l.v st.A.e))]
    refine (norm_add_le _ _).trans (add_le_add h.err ?_)
    rw [norm_conjU h.uni]
    exact e

/-- the reflection vector -/
noncomputable def hvq (n k : Nat) (gamma : 𝕜) (A : VMat 𝕜) (i : Nat) : 𝕜 := if i ≤ k then 0 else if i = k + 1 then 1 else if i < n then A.e i k / gamma else A.e i k

/-- result of `tdHouse` -/
structure HouseRes (n k : Nat) (nsign alpha beta : 𝕜) (v : Nat → 𝕜) (st st' : TdSt 𝕜) : Prop where
  ar : st'.A.rows = n
  ac : st'.A.cols = n
  qr : st'.Q.rows = n
  qc : st'.Q.cols = n
  T : st'.T = ⟨⟨st.T.d.n, fun j => if j = k then RCLike.re (st.A.e k k) else st.T.d.v j⟩,
      ⟨st.T.u.n, fun j => if j = k then ‖alpha‖ else st.T.u.v j⟩, ⟨st.T.l.n, fun j => if j = k then ‖alpha‖ else st.T.l.v j⟩⟩
  p : st'.psign = st.psign * star nsign
  A : ∃ a1 : Nat → Nat → 𝕜,
    (∀ i j, k < i → i < n → k < j → j < n → a1 i j = st.A.e i j - beta * (∑ b ∈ Finset.range n, star (v b) * st.A.e b j) * v i) ∧
    (∀ i j, k < i → i < n → k < j → j < n → st'.A.e i j = a1 i j - beta * (∑ b ∈ Finset.range n, v b * a1 i b) * star (v j))
  Q : ∀ i j, i < n → j < n → st'.Q.e i j = (st.Q.e i j - beta * (∑ b ∈ Finset.range n, v b * st.Q.e i b) * star (v j)) *
    (if j = k + 1 then nsign * star st.psign else 1)

set_option maxHeartbeats 2000000 in
theorem tdHouse_comp {sgn : 𝕜 → 𝕜} {n k : Nat} {norm2 : ℝ} {st : TdSt 𝕜} {s alpha beta : 𝕜} (g1 : st.A.rows = n) (g2 : st.A.cols = n) (g3 : st.T.d.n = n)
    (g4 : n - 1 ≤ st.T.l.n) (g5 : n - 1 ≤ st.T.u.n) (g6 : st.Q.rows = n) (g7 : st.Q.cols = n) (hk : k + 1 < n) (hse : s = sgn (st.A.e (k + 1) k))
    (hal : alpha = -s * (√norm2 : 𝕜)) (c1 : st.A.e (k + 1) k - alpha ≠ 0) (c2 : norm2 + ‖st.A.e (k + 1) k‖ * √norm2 ≠ 0)
    (hbe : beta = ((1 / (norm2 + ‖st.A.e (k + 1) k‖ * √norm2) : ℝ) : 𝕜) * ((‖st.A.e (k + 1) k - alpha‖ ^ 2 : ℝ) : 𝕜)) :
    Tot (tdHouse sgn n k norm2 st) fun st' => HouseRes n k (sgn alpha) alpha beta (hvq n k (st.A.e (k + 1) k - alpha) st.A) st st' := by
  obtain ⟨A, ⟨d, u, l⟩, Q, psign⟩ := st
  simp only at g1 g2 g3 g4 g5 g6 g7 hse c1 c2 hbe ⊢
  unfold tdHouse
  simp only
  rw [vget_ok (by omega) (by omega), ok_bind, ← hse, ← hal]
  obtain ⟨A1, hA1⟩ : ∃ A1 : VMat 𝕜, A1 = ⟨n, n, fun r c => if c = k ∧ k + 1 < r ∧ r < n then A.e r c / (A.e (k + 1) k - alpha) else A.e r c⟩ := ⟨_, rfl⟩
  have hvv : hvq n k (A.e (k + 1) k - alpha) A = hv k A1 := by
    funext i
    unfold hvq hv
    rw [hA1]
    split_ifs with a1 a2 a3
    · rfl
    · rfl
    · exact (if_pos ⟨rfl, by omega, a3⟩).symm
    · exact (if_neg (by omega)).symm
  have hcd : cdiv 1 (norm2 + ‖A.e (k + 1) k‖ * √norm2) = .ok (1 / (norm2 + ‖A.e (k + 1) k‖ * √norm2)) := if_neg c2
  rw [hcd, ok_bind, ← hbe, hvv]
  refine Tot.bind (P := fun B => B = A1) ?_ ?_
  · refine (forUp_tot (fun i (B : VMat 𝕜) => B = ⟨n, n, fun r c => if c = k ∧ k + 1 < r ∧ r < i then A.e r c / (A.e (k + 1) k - alpha) else A.e r c⟩)
      (by omega) ?_ ?_).mono fun B hB => hB.trans hA1.symm
    · obtain ⟨r0, c0, e0⟩ := A
      simp only at g1 g2
      rw [g1, g2]
      congr 1
      funext r c
      exact (if_neg (by omega)).symm
    · rintro i B h1 h2 rfl
      rw [vget_ok h2 (by show k < n; omega), ok_bind]
      have hq : ∀ x : 𝕜, cdiv x (A.e (k + 1) k - alpha) = .ok (x / (A.e (k + 1) k - alpha)) := fun x => if_neg c1
      rw [hq, ok_bind, vset_ok h2 (by show k < n; omega)]
      refine ⟨_, rfl, ?_⟩
      congr 1
      funext r c
      dsimp only
      by_cases hx : r = i ∧ c = k
      · obtain ⟨rfl, rfl⟩ := hx
        rw [if_pos ⟨rfl, rfl⟩, if_neg (by omega), if_pos ⟨rfl, by omega, by omega⟩]
      · rw [if_neg hx]
        by_cases hy : c = k ∧ k + 1 < r ∧ r < i
        · rw [if_pos hy, if_pos ⟨hy.1, hy.2.1, by omega⟩]
        · rw [if_neg hy, if_neg (by omega)]
  rintro B - hB
  rw [hB]
  have r1 : A1.rows = n := by rw [hA1]
  have r2 : A1.cols = n := by rw [hA1]
  have r3 : ∀ i j, j ≠ k → A1.e i j = A.e i j := by
    intro i j hj
    rw [hA1]
    exact if_neg (fun h => hj h.1)
  have r4 : A1.e k k = A.e k k := by
    rw [hA1]
    exact if_neg (by omega)
  rw [vget_ok (by omega) (by omega), ok_bind, Arr.set_ok (by omega), ok_bind, Arr.set_ok (by omega), ok_bind, Arr.set_ok (by omega), ok_bind, r4]
  refine Tot.bind (Eig.reflCols_tot r1 r2 hk) ?_
  rintro A2 - ⟨t1, t2, t3⟩
  have v2 : ∀ i, hv k A2 i = hv k A1 i := by
    intro i
    unfold hv
    have e : A2.e i k = A1.e i k := by rw [t3, if_neg (by omega)]
    rw [e]
  refine Tot.bind (reflRows_tot (v := hv k A1) t1 t2 hk (by omega) (fun i hi => hv_lo _ hi) (hv_one _ _) ?_) ?_
  · intro B' q1 q2 q3 i hi hi'
    rw [vget_ok (by omega) (by omega), q3, ← v2, hv_hi _ hi]
  rintro A3 - ⟨w1, w2, w3⟩
  have v3 : ∀ i, k + 1 < i → A3.e i k = hv k A1 i := by
    intro i hi
    rw [← v2, hv_hi _ hi, w3]
    split_ifs
    · rw [hv_lo _ (le_refl k), star_zero, mul_zero, sub_zero]
    · rfl
  refine Tot.bind (reflRows_tot (v := hv k A1) (lo := 0) g6 g7 hk (by omega) (fun i hi => hv_lo _ hi) (hv_one _ _) ?_) ?_
  · intro B' q1 q2 q3 i hi hi'
    rw [vget_ok (by omega) (by omega), v3 i hi]
  rintro Q1 - ⟨x1, x2, x3⟩
  obtain ⟨D', hD'⟩ : ∃ D', D' = sgn alpha * star psign := ⟨_, rfl⟩
  rw [← hD']
  refine Tot.bind (P := fun (Q2 : VMat 𝕜) => Q2.rows = n ∧ Q2.cols = n ∧ ∀ r c, Q2.e r c = if r < n ∧ c = k + 1 then Q1.e r c * D' else Q1.e r c)
    (forUp_tot (fun j (Q2 : VMat 𝕜) => Q2.rows = n ∧ Q2.cols = n ∧ ∀ r c, Q2.e r c = if r < j ∧ c = k + 1 then Q1.e r c * D' else Q1.e r c)
      (Nat.zero_le _) ⟨x1, x2, fun r c => (if_neg (by omega)).symm⟩ ?_) ?_
  · rintro j Q2 h1 h2 ⟨y1, y2, y3⟩
    rw [vget_ok (by omega) (by omega), ok_bind, vset_ok (by omega) (by omega)]
    refine ⟨_, rfl, y1, y2, fun r c => ?_⟩
    show (if r = j ∧ c = k + 1 then Q2.e j (k + 1) * D' else Q2.e r c) = _
    by_cases hx : r = j ∧ c = k + 1
    · rw [if_pos hx, if_pos ⟨by omega, hx.2⟩, y3, if_neg (by omega), hx.1, hx.2]
    · rw [if_neg hx, y3]
      by_cases hy : r < j ∧ c = k + 1
      · rw [if_pos hy, if_pos ⟨by omega, hy.2⟩]
      · rw [if_neg hy, if_neg (by omega)]
  rintro Q2 - ⟨y1, y2, y3⟩
  refine Tot.pure ⟨w1, w2, y1, y2, rfl, rfl, ⟨A2.e, ?_, ?_⟩, ?_⟩
  · intro i j hi hi' hj hj'
    rw [t3, if_pos ⟨hj, hj', hi'⟩]
    simp only [r3 _ j (by omega)]
  · intro i j hi hi' hj hj'
    show A3.e i j = _
    rw [w3, if_pos ⟨hi, hi', hj'⟩]
  · intro i j hi hj
    show Q2.e i j = _
    rw [← hD', y3, x3, if_pos (show 0 ≤ i ∧ i < n ∧ j < n from ⟨Nat.zero_le _, hi, hj⟩)]
    by_cases hx : j = k + 1
    · rw [if_pos ⟨hi, hx⟩, if_pos hx]
    · rw [if_neg (fun h => hx h.2), if_neg hx, mul_one]

theorem tdHouse_tot {sgn : 𝕜 → 𝕜} (hsgn : IsSign sgn) {n ln un k : Nat} {tiny norm2 : ℝ} {A0 : Matrix (Fin n) (Fin n) 𝕜} {st : TdSt 𝕜} {D : 𝕜} {w : Nat → 𝕜}
    (h : TdInv n ln un tiny A0 k st D w) (hl : n - 1 ≤ ln) (hu : n - 1 ≤ un) (hk : k + 1 < n)
    (hs : norm2 = ∑ i ∈ Finset.Ico (k + 1) n, ‖st.A.e i k‖ ^ 2) (hpos : 0 < norm2) :
    Tot (tdHouse sgn n k norm2 st) fun st' => ∃ D' w', TdInv n ln un tiny A0 (k + 1) st' D' w' := by
  obtain ⟨A, ⟨d, u, l⟩, Q, psign⟩ := st
  obtain ⟨g1, g2, g3, g4, g5, g6, g7, g8, g9, g10, g11, g12, g13, g14, g15, g16, g17⟩ := h
  simp only at g1 g2 g3 g4 g5 g6 g7 g8 g9 g10 g11 g12 g13 g14 g15 g16 g17 hs
  obtain ⟨s, hse⟩ : ∃ s, s = sgn (A.e (k + 1) k) := ⟨_, rfl⟩
  have hs1 := (hsgn (A.e (k + 1) k)).1
  have hs2 := (hsgn (A.e (k + 1) k)).2
  rw [← hse] at hs1 hs2
  obtain ⟨alpha, hal⟩ : ∃ alpha : 𝕜, alpha = -s * (√norm2 : 𝕜) := ⟨_, rfl⟩
  obtain ⟨v, hvd⟩ : ∃ v, v = hvq n k (A.e (k + 1) k - alpha) A := ⟨_, rfl⟩
  have hv0 : ∀ i ≤ k, v i = 0 := fun i hi => by rw [hvd]; exact if_pos hi
  obtain ⟨c1, c2, c3⟩ := house_of (n := n) (k := k) (x := fun i => A.e i k) (v := v) (s := s) (N2 := norm2) hk
    hv0 (by rw [hvd]; unfold hvq; rw [if_neg (by omega), if_pos rfl]) hs1 hs2 hs hpos (fun i h1 h2 => by
      rw [hvd, ← hal]; unfold hvq
      rw [if_neg (by omega), if_neg (by omega), if_pos h2])
  rw [← hal] at c1 c3
  obtain ⟨beta, hbe⟩ : ∃ beta : 𝕜, beta = ((1 / (norm2 + ‖A.e (k + 1) k‖ * √norm2) : ℝ) : 𝕜) * ((‖A.e (k + 1) k - alpha‖ ^ 2 : ℝ) : 𝕜) := ⟨_, rfl⟩
  rw [← hbe] at c3
  refine (tdHouse_comp (sgn := sgn) (st := ⟨A, ⟨d, u, l⟩, Q, psign⟩) g1 g2 g3 (by simp only; omega) (by simp only; omega) g6 g7 hk hse hal c1 c2 hbe).mono ?_
  rintro ⟨A3, T3, Q2, psign3⟩ ⟨w1, w2, y1, y2, t1, t2, ⟨a1, e1, e2⟩, y3⟩
  simp only at w1 w2 y1 y2 t1 t2 e1 e2 y3
  rw [t1, t2]
  rw [← hvd] at e1 e2 y3
  obtain ⟨D', hD'⟩ : ∃ D', D' = sgn alpha * star psign := ⟨_, rfl⟩
  rw [← hD'] at y3
  have hN : 0 < √norm2 := Real.sqrt_pos.mpr hpos
  have hna : ‖alpha‖ = √norm2 := by
    rw [hal, norm_mul, norm_neg, hs1, one_mul, RCLike.norm_ofReal, abs_of_pos hN]
  have hn1 := (hsgn alpha).1
  have hn2 := (hsgn alpha).2
  have hDn : ‖D'‖ = 1 := by rw [hD', norm_mul, norm_star, hn1, g10, one_mul]
  have hreal := c3.real
  have hUn : Hm n beta (v) * (Hm n beta (v))ᴴ = 1 := by rw [Hm_adj hreal]; exact Hm_unit c3.unit
  have hQ2 : toK n Q2.e = toK n Q.e * (Hm n beta (v) * Sm n (k + 1) D') := by
    rw [← Matrix.mul_assoc, mul_Hm, mul_Sm]
    refine toK_congr fun i j hi hj => ?_
    exact y3 i j hi hj
  have hG : (Hm n beta (v) * Sm n (k + 1) D') * (Hm n beta (v) * Sm n (k + 1) D')ᴴ = 1 := by
    rw [Matrix.conjTranspose_mul, Matrix.mul_assoc, ← Matrix.mul_assoc (Sm _ _ _), Sm_unit hDn, Matrix.one_mul, hUn]
  obtain ⟨w', hw'⟩ : ∃ w' : Nat → 𝕜, w' = fun i => if i = k then psign * D else w i := ⟨_, rfl⟩
  have hM : (Hm n beta (v) * Sm n (k + 1) D')ᴴ * toK n (tdM k D w d.v l.v A.e) * (Hm n beta (v) * Sm n (k + 1) D')
      = toK n (tdM (k + 1) D' w' (fun j => if j = k then RCLike.re (A.e k k) else d.v j) (fun j => if j = k then ‖alpha‖ else l.v j) A3.e) := by
    have : (Hm n beta (v) * Sm n (k + 1) D')ᴴ * toK n (tdM k D w d.v l.v A.e) * (Hm n beta (v) * Sm n (k + 1) D')
        = (Sm n (k + 1) D')ᴴ * (Hm n beta (v) * toK n (tdM k D w d.v l.v A.e) * Hm n beta (v)) * Sm n (k + 1) D' := by
      rw [Matrix.conjTranspose_mul, Hm_adj hreal]; noncomm_ring
    rw [this, Hm_mul, mul_Hm, Sm_conj]
    refine toK_congr fun i j hi hj => ?_
    refine td_entries hk hDn g8 c3 e1 e2 (fun i hi => if_neg (by omega)) ?_ (fun i hi => if_neg (by omega)) (fun i hi => ?_) ?_ hi hj (nsign := 1)
    · rw [if_pos rfl]
      exact real_of_self (g8 k k (le_refl _) (by omega) (le_refl _) (by omega))
    · rw [hw']; exact if_neg (by omega)
    · rw [hw']
      beta_reduce
      rw [if_pos rfl, if_pos rfl, hD', star_mul', star_star]
      calc psign * D * (‖alpha‖ : 𝕜) = (star (sgn alpha) * sgn alpha) * (‖alpha‖ : 𝕜) * psign * D := by rw [unit_star hn1]; ring
        _ = star (sgn alpha) * psign * (sgn alpha * (‖alpha‖ : 𝕜)) * D := by ring
        _ = _ := by rw [hn2]
  refine ⟨D', w', ⟨w1, w2, g3, g4, g5, y1, y2, ?_, hDn, ?_, ?_, ?_, ?_, ?_, ?_, ?_, ?_⟩⟩
  · intro i j h1 h2 h3 h4
    exact td_herm hv0 hreal g8 e1 e2 (by omega) h2 (by omega) h4
  · show ‖psign * star (sgn alpha)‖ = 1
    rw [norm_mul, norm_star, g10, hn1, one_mul]
  · intro _
    show psign * star (sgn alpha) * D' = 1
    rw [hD']
    calc psign * star (sgn alpha) * (sgn alpha * star psign) = (psign * star psign) * (star (sgn alpha) * sgn alpha) := by ring
      _ = 1 := by rw [unit_star hn1, unit_star' g10, one_mul]
  · intro i hi
    rw [hw']
    beta_reduce
    split_ifs with e
    · rw [norm_mul, g10, g9, one_mul]
    · exact g12 i (by omega)
  · intro i hi hc
    replace hc : i = 0 ∨ (if i - 1 = k then ‖alpha‖ else l.v (i - 1)) ≠ 0 := hc
    rw [hw']
    beta_reduce
    have hc' : i = 0 ∨ l.v (i - 1) ≠ 0 := by
      rcases hc with hc | hc
      · exact .inl hc
      · by_cases hi0 : i = 0
        · exact .inl hi0
        · rw [if_neg (by omega)] at hc; exact .inr hc
    split_ifs with e
    · rw [e] at hc'; exact g11 hc'
    · exact g13 i (by omega) hc'
  · intro i hi
    show 0 ≤ (if i = k then ‖alpha‖ else l.v i) ∧ (if i = k then ‖alpha‖ else u.v i) = if i = k then ‖alpha‖ else l.v i
    split_ifs with e
    · exact ⟨norm_nonneg _, rfl⟩
    · exact g14 i (by omega)
  · show toK n Q2.e * (toK n Q2.e)ᴴ = 1
    rw [hQ2, Matrix.conjTranspose_mul, Matrix.mul_assoc, ← Matrix.mul_assoc (Hm n beta (v) * Sm n (k + 1) D'), hG, Matrix.one_mul, g15]
  · show ‖toK n Q2.e * toK n (tdM (k + 1) D' w' (fun j => if j = k then RCLike.re (A.e k k) else d.v j) (fun j => if j = k then ‖alpha‖ else l.v j) A3.e) * (toK n Q2.e)ᴴ - A0‖ ≤ _
    rw [← hM, hQ2]
    have hG' := hG
    generalize Hm n beta (v) * Sm n (k + 1) D' = G at hG'
    have e : ∀ U M : Matrix (Fin n) (Fin n) 𝕜, U * G * (Gᴴ * M * G) * (U * G)ᴴ = U * M * Uᴴ := by
      intro U M
      rw [Matrix.conjTranspose_mul]
      calc U * G * (Gᴴ * M * G) * (Gᴴ * Uᴴ) = U * (G * Gᴴ) * M * (G * Gᴴ) * Uᴴ := by noncomm_ring
        _ = U * M * Uᴴ := by rw [hG']; simp
    rw [e]
    refine g16.trans ?_
    push_cast
    have := Real.sqrt_nonneg tiny
    linarith
  · intro i hi
    show Q2.e i 0 = _
    rw [y3 i 0 hi (by omega), hv0 0 (Nat.zero_le _), star_zero, mul_zero, sub_zero, if_neg (by omega), mul_one]
    exact g17 i hi

end H2.Eig
