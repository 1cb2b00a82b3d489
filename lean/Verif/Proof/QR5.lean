import Verif.Proof.QR4
import Verif.Proof.Rk

/-! # Applying the reflections -/

set_option linter.unusedSectionVars false

namespace H2.QR
open Spec Dense Matrix
variable {𝕜 : Type} [RCLike 𝕜] {n : Nat}

theorem hfun_zero (n k : Nat) (V x : Nat → 𝕜) : hfun n k V 0 x = x := by
  funext i; unfold hfun; split_ifs <;> simp

theorem hfun_out {n k : Nat} {V x : Nat → 𝕜} {b : 𝕜} {i : Nat} (h : n ≤ i) : hfun n k V b x i = x i := by
  unfold hfun; rw [if_neg (by omega)]

theorem qrevalVec_tot {a : Mat} {x : Vec} {m : Mem 𝕜} (ha : a.Valid m) (hx : x.Valid m) (hd : Disj a.Cell x.Cell) (hr : a.rows ≤ x.dim) (tau : Arr 𝕜)
    (qtrans : Bool) :
    Tot (qrevalVec qtrans a tau x m) fun m' => ∃ X : Nat → 𝕜, VecBecomes x m X m' ∧ (∀ i, a.rows ≤ i → X i = x.val m i) ∧
      (fun i : Fin a.rows => X i) = (if qtrans then (qprod a.rows (a.val m) tau.v (min (min a.rows a.cols) tau.n))ᴴ
        else qprod a.rows (a.val m) tau.v (min (min a.rows a.cols) tau.n)) *ᵥ fun i => x.val m i := by
  unfold qrevalVec
  refine Tot.cassert (by simpa using hr) ?_
  obtain ⟨q, hq⟩ : ∃ q, q = min (min a.rows a.cols) tau.n := ⟨_, rfl⟩
  rw [← hq]
  have h0 : AB x.addr x.dim m (x.val m) m := ab_vec.mpr ⟨hx, fun _ _ => rfl, fun _ _ => rfl⟩
  have inj : ∀ i < x.dim, ∀ j < x.dim, x.addr i = x.addr j → i = j := fun i _ j _ e => by simp only [Vec.addr] at e; omega
  have step : ∀ {k : Nat} (_ : k < q) (b : 𝕜) {X : Nat → 𝕜} {m' : Mem 𝕜}, AB x.addr x.dim m X m' →
      Tot (if b ≠ 0 then applyRefl a k b x.addr m' else pure m') (AB x.addr x.dim m (hfun a.rows k (fun i => a.val m i k) b X)) := by
    intro k hk b X m' h
    by_cases hb : b = 0
    · rw [if_neg (by simpa using hb), hb, hfun_zero]
      exact ⟨_, rfl, h⟩
    · rw [if_pos hb]
      exact applyRefl_tot (by omega) hr inj h (fun i _ hi => ha.some hi (by omega)) (fun i _ hi j hj e => hd _ (Mat.cell_addr hi (by omega)) (e ▸ Vec.cell_addr hj))
  by_cases ht : qtrans = true
  · rw [if_pos ht]
    simp only [ht, if_true]
    refine (forUp_tot (fun k m' => ∃ X : Nat → 𝕜, AB x.addr x.dim m X m' ∧ (∀ i, a.rows ≤ i → X i = x.val m i) ∧
      (fun i : Fin a.rows => X i) = (qprod a.rows (a.val m) tau.v k)ᴴ *ᵥ fun i => x.val m i) (Nat.zero_le _)
      ⟨_, h0, fun _ _ => rfl, by rw [qprod, conjTranspose_one, one_mulVec]⟩ ?_).mono fun m' ⟨X, h1, h2⟩ => ⟨X, ab_vec.mp h1, h2⟩
    rintro k m' - hk ⟨X, h1, h2, h3⟩
    rw [Arr.get_ok (show k < tau.n by omega), ok_bind]
    refine (step hk (star (tau.v k)) h1).mono fun m2 h4 => ⟨_, h4, fun i hi => by rw [hfun_out hi, h2 i hi], ?_⟩
    rw [hfun_refl (V := a.val m) (show k < a.rows by omega), h3, qprod, conjTranspose_mul, refl_adj, mulVec_mulVec]
  · rw [if_neg ht]
    simp only [Bool.not_eq_true] at ht
    simp only [ht, Bool.false_eq_true, if_false]
    refine (forDown_tot (fun k m' => ∃ X : Nat → 𝕜, AB x.addr x.dim m X m' ∧ (∀ i, a.rows ≤ i → X i = x.val m i) ∧
      (qprod a.rows (a.val m) tau.v k *ᵥ fun i : Fin a.rows => X i) = qprod a.rows (a.val m) tau.v q *ᵥ fun i => x.val m i)
      ⟨_, h0, fun _ _ => rfl, rfl⟩ ?_).mono fun m' ⟨X, h1, h2, h3⟩ => ⟨X, ab_vec.mp h1, h2, by rwa [qprod, one_mulVec] at h3⟩
    rintro k m' hk ⟨X, h1, h2, h3⟩
    rw [Arr.get_ok (show k < tau.n by omega), ok_bind]
    refine (step hk (tau.v k) h1).mono fun m2 h4 => ⟨_, h4, fun i hi => by rw [hfun_out hi, h2 i hi], ?_⟩
    rw [hfun_refl (V := a.val m) (show k < a.rows by omega), ← h3, qprod, mulVec_mulVec]

theorem reflMat_tot {a x : Mat} {m : Mem 𝕜} (ha : a.Valid m) (hd : Disj a.Cell x.Cell) (hr : a.rows ≤ x.rows) {k : Nat} (hk : k < a.rows) (hkc : k < a.cols) (b : 𝕜)
    {lo : Nat} (hlo : lo ≤ x.cols) {X : Nat → Nat → 𝕜} {m' : Mem 𝕜} (h : MatBecomes x m X m') :
    Tot (if b ≠ 0 then forUp lo x.cols (fun j m => applyRefl a k b (fun i => x.addr i j) m) m' else pure m')
      (MatBecomes x m fun i j => if lo ≤ j then hfun a.rows k (fun i => a.val m i k) b (fun i => X i j) i else X i j) := by
  by_cases hb : b = 0
  · rw [if_neg (by simpa using hb), hb]
    refine ⟨_, rfl, becomes_congr h fun i _ j _ => ?_⟩
    split_ifs
    · rw [hfun_zero]
    · rfl
  · rw [if_pos hb]
    have hV : ∀ i, k < i → i < a.rows → m' (a.addr i k) = some (a.val m i k) := fun i _ hi => by
      rw [h.2.2 _ (hd _ (Mat.cell_addr hi hkc)), ha.some hi hkc]
    refine (reflCols_tot (V := fun i => a.val m i k) hk hr hlo le_rfl h hV (fun i _ hi i' hi' j' _ hj' e => hd _ (Mat.cell_addr hi hkc) (e ▸ Mat.cell_addr hi' hj'))).mono
      fun m2 h2 => becomes_congr h2 fun i _ j hj => ?_
    by_cases e : lo ≤ j
    · rw [if_pos ⟨e, hj⟩, if_pos e]
    · rw [if_neg (by omega), if_neg e]

theorem qreval_tot {a x : Mat} {m : Mem 𝕜} (ha : a.Valid m) (hx : x.Valid m) (hd : Disj a.Cell x.Cell) (hr : a.rows ≤ x.rows) (tau : Arr 𝕜)
    (qtrans : Bool) :
    Tot (qreval qtrans a tau x m) fun m' => ∃ X : Nat → Nat → 𝕜, MatBecomes x m X m' ∧ (∀ i, a.rows ≤ i → ∀ j, X i j = x.val m i j) ∧
      ∀ j, (fun i : Fin a.rows => X i j) = (if qtrans then (qprod a.rows (a.val m) tau.v (min (min a.rows a.cols) tau.n))ᴴ
        else qprod a.rows (a.val m) tau.v (min (min a.rows a.cols) tau.n)) *ᵥ fun i => x.val m i j := by
  unfold qreval
  refine Tot.cassert (by simpa using hr) ?_
  obtain ⟨q, hq⟩ : ∃ q, q = min (min a.rows a.cols) tau.n := ⟨_, rfl⟩
  rw [← hq]
  have h0 : MatBecomes x m (x.val m) m := becomes_self hx
  by_cases ht : qtrans = true
  · rw [if_pos ht]
    simp only [ht, if_true]
    refine (forUp_tot (fun k m' => ∃ X : Nat → Nat → 𝕜, MatBecomes x m X m' ∧ (∀ i, a.rows ≤ i → ∀ j, X i j = x.val m i j) ∧
      ∀ j, (fun i : Fin a.rows => X i j) = (qprod a.rows (a.val m) tau.v k)ᴴ *ᵥ fun i => x.val m i j) (Nat.zero_le _)
      ⟨_, h0, fun _ _ _ => rfl, fun j => by rw [qprod, conjTranspose_one, one_mulVec]⟩ ?_)
    rintro k m' - hk ⟨X, h1, h2, h3⟩
    rw [Arr.get_ok (show k < tau.n by omega), ok_bind]
    refine (reflMat_tot ha hd hr (show k < a.rows by omega) (by omega) (star (tau.v k)) (Nat.zero_le _) h1).mono fun m2 h4 =>
      ⟨_, h4, fun i hi j => by rw [if_pos (Nat.zero_le _), hfun_out hi, h2 i hi], fun j => ?_⟩
    simp only [Nat.zero_le, if_true]
    rw [hfun_refl (V := a.val m) (show k < a.rows by omega), h3, qprod, conjTranspose_mul, refl_adj, mulVec_mulVec]
  · rw [if_neg ht]
    simp only [Bool.not_eq_true] at ht
    simp only [ht, Bool.false_eq_true, if_false]
    refine (forDown_tot (fun k m' => ∃ X : Nat → Nat → 𝕜, MatBecomes x m X m' ∧ (∀ i, a.rows ≤ i → ∀ j, X i j = x.val m i j) ∧
      ∀ j, (qprod a.rows (a.val m) tau.v k *ᵥ fun i : Fin a.rows => X i j) = qprod a.rows (a.val m) tau.v q *ᵥ fun i => x.val m i j)
      ⟨_, h0, fun _ _ _ => rfl, fun _ => rfl⟩ ?_).mono fun m' ⟨X, h1, h2, h3⟩ => ⟨X, h1, h2, fun j => by have := h3 j; rwa [qprod, one_mulVec] at this⟩
    rintro k m' hk ⟨X, h1, h2, h3⟩
    rw [Arr.get_ok (show k < tau.n by omega), ok_bind]
    refine (reflMat_tot ha hd hr (show k < a.rows by omega) (by omega) (tau.v k) (Nat.zero_le _) h1).mono fun m2 h4 =>
      ⟨_, h4, fun i hi j => by rw [if_pos (Nat.zero_le _), hfun_out hi, h2 i hi], fun j => ?_⟩
    simp only [Nat.zero_le, if_true]
    rw [hfun_refl (V := a.val m) (show k < a.rows by omega), ← h3, qprod, mulVec_mulVec]

/-- reflections beyond position `j` do not change the `j`-th unit vector -/
theorem qprod_unit {V : Nat → Nat → 𝕜} {t : Nat → 𝕜} {k k' j : Nat} (hj : j < n) (hjk : j < k) (hk : k ≤ k') :
    qprod n V t k' *ᵥ Pi.single ⟨j, hj⟩ 1 = qprod n V t k *ᵥ Pi.single ⟨j, hj⟩ 1 := by
  induction k', hk using Nat.le_induction with
  | base => rfl
  | succ k' h ih =>
    rw [qprod, ← mulVec_mulVec, refl_fix, ih]
    intro i hi
    rw [Pi.single_eq_of_ne]
    intro e
    have := congrArg Fin.val e
    simp only at this
    omega

theorem qrexpand_tot {a q : Mat} {m : Mem 𝕜} (ha : a.Valid m) (hq : q.Valid m) (hd : Disj a.Cell q.Cell) (hr : a.rows ≤ q.rows) (hc : q.cols ≤ a.rows) (tau : Arr 𝕜) :
    Tot (qrexpand a tau q m) fun m' => ∃ X : Nat → Nat → 𝕜, MatBecomes q m X m' ∧ (∀ i, a.rows ≤ i → ∀ j, X i j = q.val m i j) ∧
      ∀ j < q.cols, ∀ i : Fin a.rows, X i j = if h : j < a.rows then qprod a.rows (a.val m) tau.v (min (min a.rows a.cols) tau.n) i ⟨j, h⟩ else 0 := by
  unfold qrexpand
  refine Tot.cassert (by simpa using hr) (Tot.cassert (by simpa using hc) ?_)
  obtain ⟨r, hrr⟩ : ∃ r, r = min (min q.cols tau.n) (min a.rows a.cols) := ⟨_, rfl⟩
  rw [← hrr]
  refine Tot.bind (P := fun m' => MatBecomes q m (fun i j => if i < a.rows then (if i = j then 1 else 0) else q.val m i j) m') ?_ fun m1 _ h1 => ?_
  · refine (forUp_tot (fun s m' => MatBecomes q m (fun i j => if i < a.rows ∧ j < s then (if i = j then 1 else 0) else q.val m i j) m') (Nat.zero_le _)
      (becomes_congr (becomes_self hq) fun i _ j _ => by rw [if_neg (by omega)]) ?_).mono fun m' h' => becomes_congr h' fun i hi j hj => by
        by_cases e : i < a.rows
        · rw [if_pos ⟨e, hj⟩, if_pos e]
        · rw [if_neg (by omega), if_neg e]
    intro j m' _ hj h1
    refine Tot.bind (colLineLoop h1 hj (Nat.zero_le _) hr (new := fun _ => 0) fun i _ _ m2 G h2 _ => rfl) fun m2 _ h2 => ?_
    refine (becomes_write h2 (show j < q.rows by omega) hj 1).mono fun m3 h3 => becomes_congr h3 fun i' hi' j' hj' => ?_
    by_cases e : i' = j ∧ j' = j
    · obtain ⟨rfl, rfl⟩ := e
      rw [fset_same, if_pos (by omega), if_pos rfl]
    · rw [fset_ne e]
      by_cases e1 : j' = j
      · by_cases e2 : i' < a.rows
        · rw [if_pos (by omega), if_pos (by omega), if_neg (by omega)]
        · rw [if_neg (by omega), if_neg (by omega), if_neg (by omega)]
      · rw [if_neg (by omega)]
        by_cases e2 : i' < a.rows ∧ j' < j
        · rw [if_pos e2, if_pos (show i' < a.rows ∧ j' < j + 1 by omega)]
        · rw [if_neg e2, if_neg (show ¬ (i' < a.rows ∧ j' < j + 1) by omega)]
  · refine (forDown_tot (fun k m' => ∃ X : Nat → Nat → 𝕜, MatBecomes q m X m' ∧ (∀ i, a.rows ≤ i → ∀ j, X i j = q.val m i j) ∧
      (∀ j < k, ∀ i < a.rows, X i j = if i = j then 1 else 0) ∧
      ∀ j (h : j < a.rows), j < q.cols → (qprod a.rows (a.val m) tau.v k *ᵥ fun i : Fin a.rows => X i j) =
        qprod a.rows (a.val m) tau.v r *ᵥ Pi.single (⟨j, h⟩ : Fin a.rows) 1)
      ⟨_, h1, fun i hi j => by rw [if_neg (by omega)], fun j _ i hi => by rw [if_pos hi], fun j hj _ => ?_⟩ ?_).mono fun m' ⟨X, h2, h3, h4, h5⟩ => ⟨X, h2, h3, fun j hj i => ?_⟩
    · congr 1
      funext i
      rw [if_pos i.2]
      by_cases e : i.1 = j
      · rw [if_pos e, show i = ⟨j, hj⟩ from Fin.ext e, Pi.single_eq_same]
      · rw [if_neg e, Pi.single_eq_of_ne (fun e' => e (congrArg Fin.val e'))]
    · rintro k m' hk ⟨X, h2, h3, h4, h5⟩
      rw [Arr.get_ok (show k < tau.n by omega), ok_bind]
      refine (reflMat_tot ha hd hr (show k < a.rows by omega) (by omega) (tau.v k) (show k ≤ q.cols by omega) h2).mono fun m2 h6 => ⟨_, h6, fun i hi j => ?_, fun j hj i hi => ?_, fun j hj hjc => ?_⟩
      · split_ifs
        · rw [hfun_out hi, h3 i hi]
        · rw [h3 i hi]
      · rw [if_neg (by omega), h4 j (by omega) i hi]
      · by_cases e : k ≤ j
        · simp only [if_pos e]
          rw [hfun_refl (V := a.val m) (show k < a.rows by omega), ← h5 j hj hjc, qprod, mulVec_mulVec]
        · simp only [if_neg e]
          rw [← h5 j hj hjc, qprod, ← mulVec_mulVec, refl_fix]
          intro i hi
          rw [h4 j (by omega) i i.2, if_neg (by omega)]
    · have hj' : j < a.rows := by omega
      have := h5 j hj' hj
      rw [qprod, one_mulVec] at this
      have e1 : qprod a.rows (a.val m) tau.v r *ᵥ Pi.single (⟨j, hj'⟩ : Fin a.rows) 1 =
          qprod a.rows (a.val m) tau.v (min (min a.rows a.cols) tau.n) *ᵥ Pi.single (⟨j, hj'⟩ : Fin a.rows) 1 := by
        by_cases e : r = min (min a.rows a.cols) tau.n
        · rw [e]
        · exact (qprod_unit hj' (by omega) (by omega)).symm
      rw [dif_pos hj', congrFun this i, e1, mulVec_single_one]
      rfl

theorem qrsolveVec_tot {a : Mat} {x : Vec} {m : Mem 𝕜} (ha : a.Valid m) (hx : x.Valid m) (hd : Disj a.Cell x.Cell) (hr : a.rows ≤ x.dim) (hc : a.cols ≤ x.dim)
    (tau : Arr 𝕜) (hD : ∀ j < min a.rows a.cols, a.val m j j ≠ 0) :
    Tot (qrsolveVec a tau x m) fun m' => ∃ X Y : Nat → 𝕜, VecBecomes x m X m' ∧
      (fun i : Fin a.rows => Y i) = (qprod a.rows (a.val m) tau.v (min (min a.rows a.cols) tau.n))ᴴ *ᵥ (fun i => x.val m i) ∧
      (∀ i < min a.rows a.cols, ∑ j ∈ Finset.range (min a.rows a.cols), tri false false (a.val m) i j * X j = Y i) ∧
      (∀ i, a.rows ≤ i → Y i = x.val m i) ∧ ∀ i, min a.rows a.cols ≤ i → i < x.dim → X i = Y i := by
  unfold qrsolveVec
  refine Tot.bind (qrevalVec_tot ha hx hd hr tau true) fun m1 _ ⟨Y, h1, h2, h3⟩ => ?_
  have ha1 : a.Valid m1 := ⟨ha.1, fun i hi j hj => by rw [h1.2.2 _ (hd _ (Mat.cell_addr hi hj))]; exact ha.2 i hi j hj⟩
  have hv : ∀ i < a.rows, ∀ j < a.cols, a.val m1 i j = a.val m i j := fun i hi j hj => by
    unfold Mat.val; rw [h1.2.2 _ (hd _ (Mat.cell_addr hi hj))]
  refine (trisolveVec_tot ha1 h1.1 hd hr hc false false false (fun _ j hj => by rw [hv j (by omega) j (by omega)]; exact hD j hj)).mono fun m2 ⟨X, h4, h5, h6⟩ => ?_
  refine ⟨X, Y, ⟨h4.1, h4.2.1, fun c hc' => by rw [h4.2.2 c hc', h1.2.2 c hc']⟩, h3, fun i hi => ?_, h2, fun i hi hid => by rw [h6 i hi, h1.2.1 i hid]⟩
  rw [← h1.2.1 i (by omega), ← h5 i hi]
  refine Finset.sum_congr rfl fun j hj => ?_
  rw [Finset.mem_range] at hj
  simp only [op, Bool.false_eq_true, if_false]
  congr 1
  unfold tri
  simp only [hv i (by omega) j (by omega), hv i (by omega) i (by omega)]

end H2.QR
