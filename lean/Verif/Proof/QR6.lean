import Verif.Proof.QR5
import Verif.Proof.HMatrix
import Mathlib.LinearAlgebra.Matrix.Block

/-! # Results in terms of matrices -/

set_option linter.unusedSectionVars false

namespace H2.QR
open Spec Dense Matrix
variable {𝕜 : Type} [RCLike 𝕜] {n : Nat}

theorem QInv.congr {c : Nat} {A : Nat → Nat → 𝕜} {err : ℝ} {k : Nat} {W W' : Nat → Nat → 𝕜} {t : Nat → 𝕜} (h : QInv n c A err k W t) (hk : k ≤ c)
    (hW : ∀ i < n, ∀ j < c, W' i j = W i j) : QInv n c A err k W' t := by
  have e : qprod n W' t k = qprod n W t k := qprod_congr (fun l hl i hi _ => hW i hi l (by omega)) fun _ _ => rfl
  refine ⟨fun l hl => ?_, fun j hj hjc => ?_, fun j hj hjc => ?_⟩
  · rw [hvec_congr (V' := W) (fun i hi _ => hW i hi l (by omega))]; exact h.unit l hl
  · have e1 : upcol n W' j = upcol n W j := by funext i; rw [upcol_eq, upcol_eq, hW i i.2 j hjc]
    rw [e, e1]; exact h.done j hj hjc
  · have e1 : col n W' j = col n W j := by funext i; exact hW i i.2 j hjc
    rw [e, e1]; exact h.todo j hj hjc

theorem Dom.congr {c : Nat} {tiny : ℝ} {k : Nat} {W W' : Nat → Nat → 𝕜} (h : Dom n c tiny k W) (hk : k ≤ c) (hn : k ≤ n)
    (hW : ∀ i < n, ∀ j < c, W' i j = W i j) : Dom n c tiny k W' := by
  intro l hl j hj hjc
  rw [hW l (by omega) l (by omega), Finset.sum_congr rfl fun i hi => by rw [hW i (by rw [Finset.mem_Ico] at hi; have := hi.2; split_ifs at this <;> omega) j hjc]]
  exact h l hl j hj hjc

theorem colErr_eq {r c : Nat} (A : Nat → Nat → 𝕜) (Q : Matrix (Fin r) (Fin r) 𝕜) (S : Nat → Nat → 𝕜) (j : Fin c) :
    colErr (toMat r c A) (Q * toMat r c S) j = nrm2 (col r A j - Q *ᵥ col r S j) := rfl

theorem QInv.err_lt {c : Nat} {A : Nat → Nat → 𝕜} {err : ℝ} {k : Nat} {W : Nat → Nat → 𝕜} {t : Nat → 𝕜} (h : QInv n c A err k W t) {j : Fin c} (hj : j.1 < k) :
    colErr (toMat n c A) (qprod n W t k * toMat n c (tri false false W)) j ≤ err := by
  rw [colErr_eq]
  exact h.done j hj j.2

theorem QInv.err_ge {c : Nat} {A : Nat → Nat → 𝕜} {err : ℝ} {W : Nat → Nat → 𝕜} {t : Nat → 𝕜} (h : QInv n c A err (min n c) W t) {j : Fin c} (hj : min n c ≤ j.1) :
    colErr (toMat n c A) (qprod n W t (min n c) * toMat n c (tri false false W)) j = 0 := by
  rw [colErr_eq, h.todo j hj j.2]
  have e : col n (tri false false W) j = col n W j := by
    funext i
    have := upcol_eq W j i
    rw [if_pos (by have := i.2; have := j.2; omega)] at this
    exact this
  rw [e, sub_self]
  simp [nrm2]

/-- columns before `k`, with the truncated triangular factor -/
theorem QInv.trunc_lt {c : Nat} {A : Nat → Nat → 𝕜} {err : ℝ} {k : Nat} {W : Nat → Nat → 𝕜} {t : Nat → 𝕜} (h : QInv n c A err k W t) {j : Fin c} (hj : j.1 < k) :
    colErr (toMat n c A) (qprod n W t k * toMat n c (fun i j => if i < k then tri false false W i j else 0)) j ≤ err := by
  rw [colErr_eq]
  have e : col n (fun i j => if i < k then tri false false W i j else 0) j = upcol n W j := by
    funext i
    show (if i.1 < k then tri false false W i j else 0) = upcol n W j i
    by_cases hi : i.1 < k
    · rw [if_pos hi]; rfl
    · rw [if_neg hi, upcol_eq, if_neg (by omega)]
  rw [e]
  exact h.done j hj j.2

theorem QInv.trunc_ge {c : Nat} {A : Nat → Nat → 𝕜} {err : ℝ} {k : Nat} {W : Nat → Nat → 𝕜} {t : Nat → 𝕜} (h : QInv n c A err k W t) {j : Fin c} (hj : k ≤ j.1) :
    colErr (toMat n c A) (qprod n W t k * toMat n c (fun i j => if i < k then tri false false W i j else 0)) j = tail2 n W k j := by
  rw [colErr_eq, h.todo j hj j.2, ← mulVec_sub, nrm2_mulVec (qprod_mem h.unit), tail2_fin]
  unfold nrm2
  refine Finset.sum_congr rfl fun i _ => ?_
  show ‖W i j - (if i.1 < k then tri false false W i j else 0)‖ ^ 2 = _
  by_cases hi : i.1 < k
  · have := upcol_eq W j i
    rw [if_pos (by omega)] at this
    replace this : tri false false W i j = W i j := this
    rw [if_pos hi, this, if_neg (by omega)]
    simp
  · rw [if_neg hi, if_pos (by omega), sub_zero]

theorem sum_ge {c k : Nat} {f : Fin c → ℝ} {g : Nat → ℝ} (h : ∀ j : Fin c, k ≤ j.1 → f j = g j) :
    ∑ j : Fin c, (if k ≤ j.1 then f j else 0) = ∑ j ∈ Finset.Ico k c, g j := by
  have e : ∀ j : Fin c, (if k ≤ j.1 then f j else 0) = (fun x : ℕ => if k ≤ x then g x else 0) j.1 := fun j => by
    by_cases hj : k ≤ j.1
    · simp only [if_pos hj, h j hj]
    · simp only [if_neg hj]
  rw [Finset.sum_congr rfl fun j _ => e j, Fin.sum_univ_eq_sum_range (fun x : ℕ => if k ≤ x then g x else 0), ← Finset.sum_filter]
  refine Finset.sum_congr ?_ fun _ _ => rfl
  ext i; simp; omega

theorem tail2_norm {c : Nat} (A : Nat → Nat → 𝕜) (j : Fin c) : tail2 n A 0 j = ∑ i : Fin n, ‖A i j‖ ^ 2 := by
  rw [tail2_fin]
  exact Finset.sum_congr rfl fun i _ => if_pos (Nat.zero_le _)

/-! ### inversion -/

theorem toMat_mul_col {r c : Nat} (Q : Matrix (Fin r) (Fin c) 𝕜) (X : Nat → Nat → 𝕜) (i : Fin r) {k : Nat} (j : Fin k) :
    (Q * toMat c k X) i j = (Q *ᵥ fun l => X l j) i := rfl

theorem det_tri (W : Nat → Nat → 𝕜) : (toMat n n (tri false false W)).det = ∏ i : Fin n, W i i := by
  rw [det_of_upperTriangular]
  · refine Finset.prod_congr rfl fun i _ => ?_
    simp [toMat, tri]
  · intro i j hij
    have hij : j < i := hij
    have h1 : ¬ i.1 = j.1 := by omega
    have h2 : ¬ i.1 < j.1 := by omega
    simp only [toMat, of_apply, tri, if_neg h1, Bool.false_eq_true, if_false, if_neg h2]

theorem qrinvert_tot {sgn : 𝕜 → 𝕜} {e tiny : ℝ} (hs : SignFn e sgn) (htiny : 0 ≤ tiny) {a : Mat} {n : Nat} (hn : n = a.rows) (hsq : a.rows = a.cols) {m : Mem 𝕜} (ha : a.Valid m) 
    {p : Nat} (hf : Fresh m p (n * n)) (junk junkT : Nat → 𝕜)
    (hB : ∀ B : Matrix (Fin n) (Fin n) 𝕜, (∀ j, colErr (toMat n n (a.val m)) B j ≤ max tiny e) → B.det ≠ 0) :
    Tot (qrinvert sgn tiny p junk junkT a m) fun m' => a.Valid m' ∧ Frame a.Cell m m' ∧
      ∃ B : Matrix (Fin n) (Fin n) 𝕜, (∀ j, colErr (toMat n n (a.val m)) B j ≤ max tiny e) ∧ 
        B * toMat n n (a.val m') = 1 := by
  unfold qrinvert
  refine Tot.cassert (by simpa using hsq) ?_
  simp only [← hn]
  obtain ⟨A, hA⟩ : ∃ A : Mat, A = ⟨p, n, n, n⟩ := ⟨_, rfl⟩
  have hAn : A.rows = n ∧ A.cols = n ∧ A.ld = n ∧ A.base = p := by rw [hA]; exact ⟨rfl, rfl, rfl, rfl⟩
  rw [← hA]
  obtain ⟨m1, hm1⟩ : ∃ m1, m1 = m.alloc p (n * n) junk := ⟨_, rfl⟩
  rw [← hm1]
  have hAv : A.Valid m1 := by rw [hA, hm1]; exact Rk.alloc_valid
  have hblk : ∀ c, A.Cell c → p ≤ c ∧ c < p + n * n := fun c hc => by
    have := Rk.cell_block (by omega) hc
    unfold Spec.Block at this
    rwa [hAn.2.2.1, hAn.2.2.2, hAn.2.1] at this
  have hdis : Disj a.Cell A.Cell := fun c h1 h2 => by
    obtain ⟨i, hi, j, hj, rfl⟩ := h1
    have := ha.2 i hi j hj
    rw [hf _ (hblk _ h2).1 (hblk _ h2).2] at this
    cases this
  have hold : ∀ c, a.Cell c → m1 c = m c := by
    rintro c ⟨i, hi, j, hj, rfl⟩
    rw [hm1]; exact HMat.alloc_old hf (ha.2 i hi j hj)
  have ha1 : a.Valid m1 := ⟨ha.1, fun i hi j hj => by rw [hold _ (Mat.cell_addr hi hj)]; exact ha.2 i hi j hj⟩
  have hval1 : ∀ i < n, ∀ j < n, a.val m1 i j = a.val m i j := fun i hi j hj => by
    unfold Mat.val; rw [hold _ (Mat.cell_addr (by omega) (by omega))]
  refine Tot.bind (copy_tot ha1 hAv hdis false (by simp only [opRows, Bool.false_eq_true, if_false]; omega) (by simp only [opCols, Bool.false_eq_true, if_false]; omega)) fun m2 _ h2 => ?_
  refine Tot.bind (qrdecomp_tot hs htiny junkT ⟨n, junkT⟩ h2.1) ?_
  rintro ⟨tau, m3⟩ - ⟨g1, -, W, g2, g3⟩
  simp only at g1 g2 g3 ⊢
  rw [hAn.1, hAn.2.1, Nat.min_self] at g1 g3
  have g3' := (g3.congr (W' := A.val m3) le_rfl fun i hi j hj => g2.2.1 i (by omega) j (by omega))
  obtain ⟨Q, hQ⟩ : ∃ Q, Q = qprod n (A.val m3) tau.v n := ⟨_, rfl⟩
  have hQu : Q ∈ unitaryGroup (Fin n) 𝕜 := hQ ▸ qprod_mem g3'.unit
  obtain ⟨R, hR⟩ : ∃ R, R = toMat n n (tri false false (A.val m3)) := ⟨_, rfl⟩
  have hval2 : ∀ i < n, ∀ j < n, A.val m2 i j = a.val m i j := fun i hi j hj => by
    rw [h2.2.1 i (by omega) j (by omega), ← hval1 i hi j hj]; simp [op]
  have herr : ∀ j, colErr (toMat n n (a.val m)) (Q * R) j ≤ max tiny e := fun j => by
    have e1 : toMat n n (a.val m) = toMat n n (A.val m2) := by
      ext i j; exact (hval2 i i.2 j j.2).symm
    rw [e1, hQ, hR]
    exact g3'.err_lt j.2
  have hdiag : ∀ j < n, A.val m3 j j ≠ 0 := fun j hj => by
    have := hB _ herr
    rw [det_mul, hR, det_tri] at this
    exact Finset.prod_ne_zero_iff.mp (right_ne_zero_of_mul this) ⟨j, hj⟩ (Finset.mem_univ _)
  have fr3 : ∀ c, ¬ A.Cell c → m3 c = m1 c := fun c hc => by rw [g2.2.2 c hc, h2.2.2 c hc]
  have ha3 : a.Valid m3 := ⟨ha.1, fun i hi j hj => by rw [fr3 _ (hdis _ (Mat.cell_addr hi hj))]; exact ha1.2 i hi j hj⟩
  refine Tot.bind (identity_tot ha3) fun m4 _ h4 => ?_
  refine Tot.bind (P := fun m' => ∃ X : Nat → Nat → 𝕜, MatBecomes a m4 X m' ∧ ∀ j < n, (Q * R) *ᵥ (fun i : Fin n => X i j) = fun i => if i.1 = j then 1 else 0)
    ((forUp_tot (fun k m' => ∃ X : Nat → Nat → 𝕜, MatBecomes a m4 X m' ∧ (∀ j < k, (Q * R) *ᵥ (fun i : Fin n => X i j) = fun i => if i.1 = j then 1 else 0) ∧
      ∀ j, k ≤ j → ∀ i, X i j = if i = j then 1 else 0) (Nat.zero_le _) ⟨_, becomes_congr (becomes_self h4.1) (fun i hi j hj => h4.2.1 i hi j hj), fun j hj => by omega, fun j _ i => rfl⟩ ?_).mono
      fun m' ⟨X, h⟩ => ⟨X, h.1, h.2.1⟩) ?_
  · rintro k m' - hk ⟨X, h5, h6, h7⟩
    rw [initColumn_ok.mpr ⟨by omega, rfl⟩, ok_bind]
    obtain ⟨b, hb⟩ : ∃ b : Vec, b = ⟨a.base + k * a.ld, a.rows⟩ := ⟨_, rfl⟩
    rw [← hb]
    have hbd : b.dim = n := by rw [hb, hn]
    have hbaddr : ∀ i, b.addr i = a.addr i k := fun i => by rw [hb]; simp only [Vec.addr, Mat.addr]; omega
    have hbc : ∀ c, b.Cell c → a.Cell c := by
      rintro c ⟨i, hi, rfl⟩
      rw [hbaddr]; exact Mat.cell_addr (by omega) (by omega)
    have hfr : ∀ c, ¬ a.Cell c → m' c = m3 c := fun c hc => by rw [h5.2.2 c hc, h4.2.2 c hc]
    have hAm : ∀ i < n, ∀ j < n, m' (A.addr i j) = m3 (A.addr i j) := fun i hi j hj => hfr _ fun h => hdis _ h (Mat.cell_addr (by omega) (by omega))
    have hAv' : A.Valid m' := ⟨g2.1.1, fun i hi j hj => by rw [hAm i (by omega) j (by omega)]; exact g2.1.2 i hi j hj⟩
    have hAval : ∀ i < n, ∀ j < n, A.val m' i j = A.val m3 i j := fun i hi j hj => by unfold Mat.val; rw [hAm i hi j hj]
    have hbv : b.Valid m' := fun i hi => by rw [hbaddr]; exact h5.1.2 i (by omega) k (by omega)
    have hbval : ∀ i < n, b.val m' i = if i = k then 1 else 0 := fun i hi => by
      rw [← h7 k le_rfl i, ← h5.2.1 i (by omega) k (by omega)]
      unfold Vec.val Mat.val; rw [hbaddr]
    refine (qrsolveVec_tot hAv' hbv (fun c h1 h2 => hdis _ (hbc c h2) h1) (by omega) (by omega) tau (fun j hj => by rw [hAval j (by omega) j (by omega)]; exact hdiag j (by omega))).mono ?_
    rintro m5 ⟨Z, Y, k1, k2, k3, -, -⟩
    have k2' : (fun i : Fin n => Y i) = Qᴴ *ᵥ fun i => if i.1 = k then 1 else 0 := by
      have hq' : qprod n (A.val m') tau.v n = Q := by
        rw [hQ]; exact qprod_congr (fun l hl i hi _ => hAval i hi l hl) fun _ _ => rfl
      have hgen : ∀ (r q : Nat) (_ : r = n) (_ : q = n), (fun i : Fin r => Y i) = (qprod r (A.val m') tau.v q)ᴴ *ᵥ (fun i => b.val m' i) →
          (fun i : Fin n => Y i) = Qᴴ *ᵥ fun i => if i.1 = k then 1 else 0 := by
        rintro r q rfl rfl h
        rw [h, hq']
        congr 1
        funext i
        exact hbval i i.2
      exact hgen _ _ hAn.1 (by omega) k2
    refine ⟨fun i j => if j = k then Z i else X i j, becomes_col h5 (by omega) ?_, fun j hj => ?_, fun j hj i => ?_⟩
    · have := ab_vec.mpr k1
      rw [hbd] at this
      refine ⟨fun i hi => ?_, fun c hc => ?_⟩
      · beta_reduce; rw [← hbaddr]; exact this.1 i (by omega)
      · refine this.2 c fun ⟨i, hi, e⟩ => hc ⟨i, by omega, by beta_reduce; rw [← hbaddr]; exact e⟩
    · by_cases e : j = k
      · subst e
        simp only [if_true]
        have hRZ : R *ᵥ (fun i : Fin n => Z i) = fun i : Fin n => Y i := by
          funext i
          rw [← k3 i (by have := i.2; omega), hAn.1, hAn.2.1, Nat.min_self, ← Fin.sum_univ_eq_sum_range (fun x => tri false false (A.val m') i x * Z x)]
          rw [hR]
          show ∑ l : Fin n, toMat n n (tri false false (A.val m3)) i l * Z l = _
          refine Finset.sum_congr rfl fun l _ => ?_
          simp only [toMat, of_apply, tri, hAval i i.2 i i.2, hAval i i.2 l l.2]
        rw [← mulVec_mulVec, hRZ, k2', mulVec_mulVec, ← star_eq_conjTranspose, mem_unitaryGroup_iff.mp hQu, one_mulVec]
      · simp only [if_neg e]
        exact h6 j (by omega)
    · beta_reduce; rw [if_neg (show ¬ j = k by omega)]; exact h7 j (by omega) i
  · rintro m5 - ⟨X, h5, h6⟩
    have hfree : ∀ c, ¬ (p ≤ c ∧ c < p + n * n) → (m5.free p (n * n)) c = m5 c := fun c hc => by simp only [Mem.free, if_neg hc]
    have hnb : ∀ c, a.Cell c → ¬ (p ≤ c ∧ c < p + n * n) := by
      rintro c ⟨i, hi, j, hj, rfl⟩ h
      have := ha.2 i hi j hj
      rw [hf _ h.1 h.2] at this
      cases this
    refine ⟨_, rfl, ⟨ha.1, fun i hi j hj => ?_⟩, fun c hc => ?_, Q * R, herr, ?_⟩
    · rw [hfree _ (hnb _ (Mat.cell_addr hi hj))]; exact h5.1.2 i hi j hj
    · by_cases hp : p ≤ c ∧ c < p + n * n
      · rw [hf c hp.1 hp.2]; simp only [Mem.free, if_pos hp]
      · rw [hfree c hp, h5.2.2 c hc, h4.2.2 c hc, fr3 c (fun h => hp (hblk c h)), hm1, Rk.alloc_of_not hp]
    · ext i j
      rw [toMat_mul_col]
      have : (fun l : Fin n => a.val (m5.free p (n * n)) l j) = fun l : Fin n => X l j := by
        funext l
        rw [← h5.2.1 l (l.2.trans_eq hn) j (by have := j.2; omega)]
        unfold Mat.val
        rw [hfree _ (hnb _ (Mat.cell_addr (l.2.trans_eq hn) (by have := j.2; omega)))]
      rw [this, h6 j j.2, one_apply]
      beta_reduce
      by_cases e : i = j
      · rw [if_pos e, if_pos (congrArg Fin.val e)]
      · rw [if_neg e, if_neg (fun e' => e (Fin.ext e'))]

end H2.QR
