import Verif.Proof.Tridiag4

set_option linter.unusedSectionVars false

/-! The result of the tridiagonalization (C72). -/

namespace H2.Eig
open Spec Krylov Matrix
open scoped Matrix.Norms.L2Operator
variable {𝕜 : Type} [RCLike 𝕜]

/-- result of `sb_tridiagonalize_amatrix` -/
structure TdRes (n : Nat) (tiny : ℝ) (A0 : Matrix (Fin n) (Fin n) 𝕜) (T T' : Tri) (Q' : VMat 𝕜) (w : Nat → 𝕜) : Prop where
  dn : T'.d.n = n
  ln : T'.l.n = T.l.n
  un : T'.u.n = T.u.n
  qr : Q'.rows = n
  qc : Q'.cols = n
  lu : ∀ i < n - 1, 0 ≤ T'.l.v i ∧ T'.u.v i = T'.l.v i
  w1 : ∀ i < n - 1, ‖w i‖ = 1
  ww : ∀ i < n - 1, i = 0 ∨ T'.l.v (i - 1) ≠ 0 → w i = 1
  uni : (vmat Q' : Matrix (Fin n) (Fin n) 𝕜) * (vmat Q')ᴴ = 1
  err : ‖(vmat Q' : Matrix (Fin n) (Fin n) 𝕜) * herTri n T'.d.v (fun i => w i * (T'.l.v i : 𝕜)) * (vmat Q')ᴴ - A0‖ ≤ (n - 1 : ℕ) * (2 * √tiny)
  q0 : ∀ i < n, Q'.e i 0 = if i = 0 then 1 else 0

theorem tdStep_tot {sgn : 𝕜 → 𝕜} (hsgn : IsSign sgn) {n ln un k : Nat} {tiny : ℝ} (ht : 0 ≤ tiny) {A0 : Matrix (Fin n) (Fin n) 𝕜} {st : TdSt 𝕜}
    (h : ∃ D w, TdInv n ln un tiny A0 k st D w) (hl : n - 1 ≤ ln) (hu : n - 1 ≤ un) (hk : k + 1 < n) :
    Tot (tdStep sgn tiny n k st) fun st' => ∃ D' w', TdInv n ln un tiny A0 (k + 1) st' D' w' := by
  obtain ⟨D, w, h⟩ := h
  unfold tdStep
  have := h.ar
  have := h.ac
  have := h.dn
  have := h.ln
  have := h.un
  refine Tot.bind (subNorm2_tot h.ar h.ac hk) ?_
  rintro norm2 - hn
  split_ifs with hc
  · rw [vget_ok (by omega) (by omega), ok_bind, Arr.set_ok (by omega), ok_bind, Arr.set_ok (by omega), ok_bind, Arr.set_ok (by omega), ok_bind]
    exact Tot.pure ⟨_, _, tdSkip_inv h hk (by rw [← hn]; exact hc)⟩
  · exact tdHouse_tot hsgn h hl hu hk hn (lt_of_le_of_lt ht (not_le.mp hc))

theorem tridiagonalize_tot {sgn : 𝕜 → 𝕜} (hsgn : IsSign sgn) {n : Nat} {tiny : ℝ} (ht : 0 ≤ tiny) {A Q : VMat 𝕜} {T : Tri}
    (hr : A.rows = n) (hc : A.cols = n) (hd : T.d.n = n) (hl : n - 1 ≤ T.l.n) (hu : n - 1 ≤ T.u.n) (hqr : Q.rows = n) (hqc : Q.cols = n)
    (hA : ∀ i j, i < n → j < n → A.e i j = star (A.e j i)) :
    ∃ A' T' Q' w, tridiagonalize sgn tiny A T (some Q) = .ok (A', T', some Q') ∧ TdRes n tiny (vmat A) T T' Q' w := by
  unfold tridiagonalize
  simp only [hr]
  have hid : toK n (identityV Q).e = (1 : Matrix (Fin n) (Fin n) 𝕜) := by
    ext i j
    rw [Matrix.one_apply]
    show (if i.1 = j.1 then (1 : 𝕜) else 0) = _
    exact if_congr Fin.ext_iff.symm rfl rfl
  have hid' : (vmat (identityV Q) : Matrix (Fin n) (Fin n) 𝕜) = 1 := hid
  rw [cassert_true (by simpa using hc), ok_bind, cassert_true (by simpa using hqr), ok_bind, cassert_true (by simpa using hqc), ok_bind,
    cassert_true (by simpa using hd), ok_bind]
  by_cases h1 : n < 1
  · rw [if_pos h1]
    refine ⟨_, _, _, fun _ => 1, rfl, hd, rfl, rfl, hqr, hqc, fun i hi => by omega, fun i hi => by omega, fun i hi => by omega, ?_, ?_, fun i _ => rfl⟩
    · rw [hid']; simp
    · obtain rfl : n = 0 := by omega
      have : ∀ A : Matrix (Fin 0) (Fin 0) 𝕜, A = 0 := fun A => by ext i; exact i.elim0
      rw [this (_ - _)]; simp
  · rw [if_neg h1]
    by_cases h2 : n < 2
    · rw [if_pos h2, vget_ok (by omega) (by omega), ok_bind, Arr.set_ok (by omega), ok_bind]
      refine ⟨_, _, _, fun _ => 1, rfl, hd, rfl, rfl, hqr, hqc, fun i hi => by omega, fun i hi => by omega, fun i hi => by omega, ?_, ?_, fun i _ => rfl⟩
      · rw [hid']; simp
      · obtain rfl : n = 1 := by omega
        rw [hid']
        have e : (herTri 1 (fun j => if j = 0 then RCLike.re (A.e 0 0) else T.d.v j) fun i => 1 * (T.l.v i : 𝕜)) = vmat A := by
          ext i j
          obtain rfl : i = 0 := Subsingleton.elim _ _
          obtain rfl : j = 0 := Subsingleton.elim _ _
          show ((RCLike.re (A.e 0 0) : ℝ) : 𝕜) = A.e 0 0
          exact real_of_self (hA 0 0 (by omega) (by omega))
        show ‖1 * (herTri 1 (fun j => if j = 0 then RCLike.re (A.e 0 0) else T.d.v j) fun i => 1 * (T.l.v i : 𝕜)) * 1ᴴ - vmat A‖ ≤ _
        rw [e]; simp
    · rw [if_neg h2]
      have h0 : ∃ D w, TdInv n T.l.n T.u.n tiny (vmat A) 0 ⟨A, T, identityV Q, 1⟩ D w := by
        refine ⟨1, fun _ => 1, hr, hc, hd, rfl, rfl, hqr, hqc, fun i j _ h2 _ h4 => hA i j h2 h4, by simp, by simp, fun _ => by simp, fun i hi => by omega,
          fun i hi => by omega, fun i hi => by omega, ?_, ?_, fun i _ => rfl⟩
        · rw [hid]; simp
        · rw [hid]
          have e : toK n (tdM 0 1 (fun _ => 1) T.d.v T.l.v A.e) = vmat A := by
            ext i j
            unfold toK tdM tdLow
            by_cases e1 : i.1 = j.1
            · rw [if_pos e1, if_neg (by omega)]
              show A.e i i = A.e i j
              rw [e1]
            · rw [if_neg e1]
              have g : ∀ i j : Nat, (if j < 0 then (if i = j + 1 then (1 : 𝕜) * (T.l.v j : 𝕜) else 0) else if j = 0 then A.e i j * 1 else A.e i j) = A.e i j := by
                intro i j
                rw [if_neg (by omega), mul_one]
                split_ifs <;> rfl
              rw [g, g]
              split_ifs
              · rfl
              · exact (hA i j i.2 j.2).symm
          rw [e]; simp
      obtain ⟨st, es, D, w, hst⟩ := forUp_tot (fun k st => ∃ D w, TdInv n T.l.n T.u.n tiny (vmat A) k st D w) (Nat.zero_le (n - 1)) h0
        (fun k st h1 h2 h3 => tdStep_tot hsgn ht h3 hl hu (by omega))
      have := hst.ar
      have := hst.ac
      have := hst.dn
      rw [es, ok_bind, vget_ok (by omega) (by omega), ok_bind, Arr.set_ok (by omega), ok_bind]
      refine ⟨_, _, _, w, rfl, hst.dn, hst.ln, hst.un, hst.qr, hst.qc, hst.lu, hst.w1, hst.ww, hst.uni, ?_, hst.q0⟩
      have e : (herTri n (fun j => if j = n - 1 then RCLike.re (st.A.e (n - 1) (n - 1)) else st.T.d.v j) fun i => w i * (st.T.l.v i : 𝕜))
          = toK n (tdM (n - 1) D w st.T.d.v st.T.l.v st.A.e) := by
        ext i j
        have hi := i.2
        have hj := j.2
        unfold herTri toK tdM tdLow
        beta_reduce
        by_cases e1 : i.1 = j.1
        · rw [if_pos e1, if_pos e1]
          by_cases e2 : i.1 = n - 1
          · rw [if_pos e2, if_neg (by omega), e2]
            exact real_of_self (hst.herm (n - 1) (n - 1) (by omega) (by omega) (by omega) (by omega))
          · rw [if_neg e2, if_pos (by omega)]
        · rw [if_neg e1, if_neg e1]
          by_cases e2 : j.1 < i.1
          · rw [if_pos e2, if_pos (show j.1 < n - 1 by omega)]
            by_cases e3 : i.1 = j.1 + 1
            · rw [if_pos e3, if_pos e3]
            · rw [if_neg e3, if_neg e3, if_neg (by omega)]
          · rw [if_neg e2, if_pos (show i.1 < n - 1 by omega), if_neg (by omega)]
            by_cases e3 : j.1 = i.1 + 1
            · rw [if_pos e3, if_pos e3]
            · rw [if_neg e3, if_neg e3, star_zero]
      show ‖toK n st.Q.e * (herTri n (fun j => if j = n - 1 then RCLike.re (st.A.e (n - 1) (n - 1)) else st.T.d.v j) fun i => w i * (st.T.l.v i : 𝕜)) * (toK n st.Q.e)ᴴ - vmat A‖ ≤ _
      rw [e]
      exact hst.err

/-- A diagonal similarity removes the unimodular factors of the subdiagonal. -/
theorem herTri_unimodular {n : Nat} (d l : Nat → ℝ) (w : Nat → 𝕜) (h : ∀ i < n - 1, ‖w i‖ = 1) :
    ∃ E : Matrix (Fin n) (Fin n) 𝕜, E * Eᴴ = 1 ∧ E * herTri n d (fun i => (l i : 𝕜)) * Eᴴ = herTri n d fun i => w i * (l i : 𝕜) := by
  obtain ⟨e, he⟩ : ∃ e : Nat → 𝕜, e = fun i => ∏ m ∈ Finset.range i, w m := ⟨_, rfl⟩
  have hn : ∀ i < n, ‖e i‖ = 1 := by
    intro i hi
    rw [he, norm_prod]
    exact Finset.prod_eq_one fun m hm => h m (by have := Finset.mem_range.mp hm; omega)
  have hs : ∀ i, e (i + 1) = w i * e i := by
    intro i
    rw [he]
    beta_reduce
    rw [Finset.prod_range_succ, mul_comm]
  refine ⟨Matrix.diagonal fun i => e i, ?_, ?_⟩
  · rw [Matrix.diagonal_conjTranspose, Matrix.diagonal_mul_diagonal, ← Matrix.diagonal_one]
    congr 1
    funext i
    exact unit_star' (hn i i.2)
  · ext i j
    rw [Matrix.diagonal_conjTranspose, Matrix.mul_diagonal, Matrix.diagonal_mul]
    show e i * herTri n d (fun i => (l i : 𝕜)) i j * star (e j) = _
    unfold herTri
    have hi := i.2
    have hj := j.2
    split_ifs with e1 e2 e3
    · rw [mul_right_comm, e1, unit_star' (hn j hj), one_mul]
    · rw [e2, hs]
      calc w j * e j * (l j : 𝕜) * star (e j) = w j * (l j : 𝕜) * (e j * star (e j)) := by ring
        _ = _ := by rw [unit_star' (hn j hj), mul_one]
    · rw [e3, hs, star_mul', star_mul']
      calc e i * star (l i : 𝕜) * (star (w i) * star (e i)) = star (w i) * star (l i : 𝕜) * (e i * star (e i)) := by ring
        _ = _ := by rw [unit_star' (hn i hi), mul_one]
    · ring

end H2.Eig
