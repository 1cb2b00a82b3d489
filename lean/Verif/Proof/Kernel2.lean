import Verif.Proof.Kernel

/-! The loops that fill matrices. -/

set_option linter.unusedSectionVars false

namespace H2.Kern
open Spec
variable {𝕜 : Type} [RCLike 𝕜]

/-- the entries in `P` are overwritten by `f`, all others are kept -/
def Fill (S S' : VMat 𝕜) (P : Nat → Nat → Prop) (f : Nat → Nat → 𝕜) : Prop :=
  S'.rows = S.rows ∧ S'.cols = S.cols ∧ (∀ a b, P a b → S'.e a b = f a b) ∧ ∀ a b, ¬P a b → S'.e a b = S.e a b

theorem Fill.congr {S S' : VMat 𝕜} {P Q : Nat → Nat → Prop} {f g : Nat → Nat → 𝕜} (h : Fill S S' P f) (hP : ∀ a b, Q a b ↔ P a b) (hf : ∀ a b, P a b → g a b = f a b) : Fill S S' Q g :=
  ⟨h.1, h.2.1, fun a b q => by rw [hf a b ((hP a b).mp q)]; exact h.2.2.1 a b ((hP a b).mp q), fun a b q => h.2.2.2 a b fun p => q ((hP a b).mpr p)⟩

theorem put_ok {S : VMat 𝕜} {i j : Nat} (h : i < S.rows) (h' : j < S.cols) (v : 𝕜) : Tot (S.put i j v) fun S' => Fill S S' (fun a b => a = i ∧ b = j) fun _ _ => v := by
  refine ⟨⟨S.rows, S.cols, fun i' j' => if i' = i ∧ j' = j then v else S.e i' j'⟩, if_pos ⟨h, h'⟩, rfl, rfl, fun a b p => if_pos p, fun a b p => if_neg p⟩

theorem fill_loop {σ : Type} (get : σ → VMat 𝕜) (Inv : σ → Prop) {m : Nat} {body : Nat → σ → R σ} {P : Nat → Nat → Nat → Prop} {f : Nat → Nat → 𝕜} {s : σ} (h0 : Inv s)
    (hb : ∀ i < m, ∀ st, Inv st → Tot (body i st) fun st' => Inv st' ∧ Fill (get st) (get st') (P i) f) :
    Tot (forUp 0 m body s) fun s' => Inv s' ∧ Fill (get s) (get s') (fun a b => ∃ i < m, P i a b) f := by
  refine forUp_inv (fun q st => Inv st ∧ Fill (get s) (get st) (fun a b => ∃ i < q, P i a b) f) (Nat.zero_le _) ⟨h0, rfl, rfl, ?_, fun _ _ _ => rfl⟩ ?_
  · rintro a b ⟨i, hi, -⟩; omega
  · rintro q st - hq ⟨h1, h2⟩
    obtain ⟨st', e, i1, k⟩ := hb q hq st h1
    refine ⟨st', e, i1, k.1.trans h2.1, k.2.1.trans h2.2.1, ?_, ?_⟩
    · rintro a b ⟨i, hi, p⟩
      by_cases hp : P q a b
      · exact k.2.2.1 a b hp
      · rw [k.2.2.2 a b hp]
        refine h2.2.2.1 a b ⟨i, ?_, p⟩
        rcases Nat.lt_succ_iff_lt_or_eq.mp hi with h | rfl
        · exact h
        · exact absurd p hp
    · intro a b hn
      rw [k.2.2.2 a b fun p => hn ⟨q, by omega, p⟩]
      exact h2.2.2.2 a b fun ⟨i, hi, p⟩ => hn ⟨i, by omega, p⟩

/-! ### numbers of multi-indices -/

theorem div_step {m a d i0 : Nat} (hm : 0 < m) : (∃ i < m, a / m ^ d = i + i0 * m) ↔ a / m ^ (d + 1) = i0 := by
  rw [pow_succ, ← Nat.div_div_eq_div_mul]
  generalize a / m ^ d = q
  constructor
  · rintro ⟨i, hi, rfl⟩
    rw [Nat.add_mul_div_right _ _ hm, Nat.div_eq_of_lt hi, Nat.zero_add]
  · rintro rfl
    exact ⟨q % m, Nat.mod_lt _ hm, by rw [Nat.mul_comm]; exact (Nat.mod_add_div q m).symm⟩

theorem digit_of_div {m a d i i0 : Nat} (hi : i < m) (h : a / m ^ d = i + i0 * m) : digit m a d = i := by
  unfold digit
  rw [h, Nat.add_mul_mod_self_right, Nat.mod_eq_of_lt hi]

theorem bound_step {m d i i0 r : Nat} (hi : i < m) (h : (i0 + 1) * m ^ (d + 1) ≤ r) : (i + i0 * m + 1) * m ^ d ≤ r := by
  refine le_trans ?_ h
  rw [show (i0 + 1) * m ^ (d + 1) = (i0 * m + m) * m ^ d by rw [pow_succ]; ring]
  exact Nat.mul_le_mul_right _ (by omega)

/-! ### leaf matrices -/

theorem fillV1_tot {km : KM 𝕜} {txi : Nat → Nat → ℝ} {i : Nat} {xx : Nat → ℝ} (hm : 0 < km.m) : ∀ (d : Nat) (_ : ∀ e < d, ∀ i < km.m, ∀ j < km.m, txi e i = txi e j → i = j)
    {j0 : Nat} {al : 𝕜} {V : VMat 𝕜} (_ : i < V.rows) (_ : (j0 + 1) * km.m ^ d ≤ V.cols),
    Tot (KM.fillV1 km txi i xx d j0 al V) fun V' => Fill V V' (fun a b => a = i ∧ b / km.m ^ d = j0) fun _ b => al * ((∏ e ∈ Finset.range d, lag1 km.m (txi e) (digit km.m b e) (xx e) : ℝ) : 𝕜) := by
  intro d
  induction d with
  | zero =>
    intro _ j0 al V h1 h2
    rw [pow_zero, Nat.mul_one] at h2
    unfold KM.fillV1
    refine Tot.cassert (decide_eq_true h1) (Tot.cassert (decide_eq_true (by omega)) ?_)
    refine Tot.mono (put_ok h1 (by omega) al) fun V' h => h.congr (fun a b => ?_) fun a b _ => ?_
    · rw [pow_zero, Nat.div_one]
    · simp
  | succ d ih =>
    intro hx j0 al V h1 h2
    unfold KM.fillV1
    refine Tot.mono (fill_loop (fun V => V) (fun W => W.rows = V.rows ∧ W.cols = V.cols) (P := fun j a b => a = i ∧ b / km.m ^ d = j + j0 * km.m) (s := V)
      (f := fun _ b => al * ((∏ e ∈ Finset.range (d + 1), lag1 km.m (txi e) (digit km.m b e) (xx e) : ℝ) : 𝕜)) ⟨rfl, rfl⟩ ?_) ?_
    · rintro j hj W ⟨w1, w2⟩
      rw [lagrange_ok (hx d (by omega)) hj, ok_bind]
      refine Tot.mono (ih (fun e he => hx e (by omega)) (by rw [w1]; exact h1) (by rw [w2]; exact bound_step hj h2)) fun W' h => ⟨⟨h.1.trans w1, h.2.1.trans w2⟩, h.congr (fun _ _ => Iff.rfl) fun a b hb => ?_⟩
      rw [Finset.prod_range_succ, digit_of_div hj hb.2, RCLike.ofReal_mul]
      ring
    · rintro V' ⟨-, h⟩
      refine h.congr (fun a b => ?_) fun _ _ _ => rfl
      rw [← div_step hm]
      exact ⟨fun ⟨h1, j, h2, h3⟩ => ⟨j, h2, h1, h3⟩, fun ⟨j, h2, h1, h3⟩ => ⟨h1, j, h2, h3⟩⟩

/-! ### transfer matrices -/

theorem fillE1_tot {km : KM 𝕜} {sxi fxi : Nat → Nat → ℝ} (hm : 0 < km.m) : ∀ (d : Nat) (_ : ∀ e < d, ∀ i < km.m, ∀ j < km.m, fxi e i = fxi e j → i = j)
    {i0 j0 : Nat} {al : 𝕜} {E : VMat 𝕜} (_ : (i0 + 1) * km.m ^ d ≤ E.rows) (_ : (j0 + 1) * km.m ^ d ≤ E.cols),
    Tot (KM.fillE1 km sxi fxi d i0 j0 al E) fun E' => Fill E E' (fun a b => a / km.m ^ d = i0 ∧ b / km.m ^ d = j0)
      fun a b => al * ((∏ e ∈ Finset.range d, lag1 km.m (fxi e) (digit km.m b e) (sxi e (digit km.m a e)) : ℝ) : 𝕜) := by
  intro d
  induction d with
  | zero =>
    intro _ i0 j0 al V h1 h2
    rw [pow_zero, Nat.mul_one] at h1 h2
    unfold KM.fillE1
    refine Tot.cassert (decide_eq_true (by omega)) (Tot.cassert (decide_eq_true (by omega)) ?_)
    refine Tot.mono (put_ok (by omega) (by omega) al) fun V' h => h.congr (fun a b => ?_) fun a b _ => ?_
    · rw [pow_zero, Nat.div_one, Nat.div_one]
    · simp
  | succ d ih =>
    intro hx i0 j0 al V h1 h2
    unfold KM.fillE1
    refine Tot.mono (fill_loop (fun V => V) (fun W => W.rows = V.rows ∧ W.cols = V.cols) (P := fun i a b => ∃ j < km.m, a / km.m ^ d = i + i0 * km.m ∧ b / km.m ^ d = j + j0 * km.m) (s := V)
      (f := fun a b => al * ((∏ e ∈ Finset.range (d + 1), lag1 km.m (fxi e) (digit km.m b e) (sxi e (digit km.m a e)) : ℝ) : 𝕜)) ⟨rfl, rfl⟩ ?_) ?_
    · rintro i hi W hW
      refine fill_loop (fun V => V) (fun W => W.rows = V.rows ∧ W.cols = V.cols) (P := fun j a b => a / km.m ^ d = i + i0 * km.m ∧ b / km.m ^ d = j + j0 * km.m) (s := W) hW ?_
      rintro j hj W ⟨w1, w2⟩
      rw [lagrange_ok (hx d (by omega)) hj, ok_bind]
      refine Tot.mono (ih (fun e he => hx e (by omega)) (by rw [w1]; exact bound_step hi h1) (by rw [w2]; exact bound_step hj h2)) fun W' h => ⟨⟨h.1.trans w1, h.2.1.trans w2⟩, h.congr (fun _ _ => Iff.rfl) fun a b hb => ?_⟩
      rw [Finset.prod_range_succ, digit_of_div hj hb.2, digit_of_div hi hb.1, RCLike.ofReal_mul]
      ring
    · rintro V' ⟨-, h⟩
      refine h.congr (fun a b => ?_) fun _ _ _ => rfl
      rw [← div_step hm, ← div_step hm]
      exact ⟨fun ⟨⟨i, h1, h2⟩, j, h3, h4⟩ => ⟨i, h1, j, h3, h2, h4⟩, fun ⟨i, h1, j, h3, h2, h4⟩ => ⟨⟨i, h1, h2⟩, j, h3, h4⟩⟩

/-! ### coupling matrices -/

abbrev St (𝕜 : Type) := Arr ℝ × Arr ℝ × VMat 𝕜

/-- the coordinates from `d` on have the values `X` and `Y`; the dimensions of the matrix are known -/
def Inv (km : KM 𝕜) (r c d : Nat) (X Y : Nat → ℝ) (st : St 𝕜) : Prop :=
  st.1.n = km.dim ∧ st.2.1.n = km.dim ∧ (∀ e, d ≤ e → e < km.dim → st.1.v e = X e) ∧ (∀ e, d ≤ e → e < km.dim → st.2.1.v e = Y e) ∧ st.2.2.rows = r ∧ st.2.2.cols = c

/-- `g` fills the part of the matrix belonging to the prefixes `i0` and `j0` of the multi-indices -/
def SpecAt (km : KM 𝕜) (rxi cxi : Nat → Nat → ℝ) (r c d : Nat) (g : Nat → Nat → St 𝕜 → R (St 𝕜)) : Prop :=
  ∀ i0 j0 X Y st, Inv km r c d X Y st → (i0 + 1) * km.m ^ d ≤ r → (j0 + 1) * km.m ^ d ≤ c → Tot (g i0 j0 st) fun st' => Inv km r c d X Y st' ∧
    Fill st.2.2 st'.2.2 (fun a b => a / km.m ^ d = i0 ∧ b / km.m ^ d = j0) fun a b => km.kernel (fun e => pt rxi km.m a d X e) (fun e => pt cxi km.m b d Y e)

theorem setX {km : KM 𝕜} {r c d d' : Nat} {X Y : Nat → ℝ} {st : St 𝕜} (h : Inv km r c d' X Y st) (hd : d < km.dim) (v : ℝ) :
    Tot (st.1.set d v) fun xx => Inv km r c d' (Function.update X d v) Y (xx, st.2) := by
  obtain ⟨h1, h2, h3, h4, h5, h6⟩ := h
  refine ⟨_, Arr.set_ok (by omega), h1, h2, fun e he he' => ?_, h4, h5, h6⟩
  show (if e = d then v else st.1.v e) = _
  by_cases hed : e = d
  · subst hed; rw [if_pos rfl, Function.update_self]
  · rw [if_neg hed, Function.update_of_ne hed]; exact h3 e he he'

theorem setY {km : KM 𝕜} {r c d d' : Nat} {X Y : Nat → ℝ} {st : St 𝕜} (h : Inv km r c d' X Y st) (hd : d < km.dim) (v : ℝ) :
    Tot (st.2.1.set d v) fun yy => Inv km r c d' X (Function.update Y d v) (st.1, yy, st.2.2) := by
  obtain ⟨h1, h2, h3, h4, h5, h6⟩ := h
  refine ⟨_, Arr.set_ok (by omega), h1, h2, h3, fun e he he' => ?_, h5, h6⟩
  show (if e = d then v else st.2.1.v e) = _
  by_cases hed : e = d
  · subst hed; rw [if_pos rfl, Function.update_self]
  · rw [if_neg hed, Function.update_of_ne hed]; exact h4 e he he'

/-- fix coordinate `d` -/
theorem Inv.fixX {km : KM 𝕜} {r c d : Nat} {X Y : Nat → ℝ} {st : St 𝕜} {v w : ℝ} (h : Inv km r c (d + 1) X Y st) (hv : d < km.dim → st.1.v d = v) (hw : d < km.dim → st.2.1.v d = w) :
    Inv km r c d (Function.update X d v) (Function.update Y d w) st := by
  obtain ⟨h1, h2, h3, h4, h5, h6⟩ := h
  refine ⟨h1, h2, fun e he he' => ?_, fun e he he' => ?_, h5, h6⟩
  · by_cases hed : e = d
    · subst hed; rw [Function.update_self]; exact hv he'
    · rw [Function.update_of_ne hed]; exact h3 e (by omega) he'
  · by_cases hed : e = d
    · subst hed; rw [Function.update_self]; exact hw he'
    · rw [Function.update_of_ne hed]; exact h4 e (by omega) he'

/-- forget coordinate `d` -/
theorem Inv.weaken {km : KM 𝕜} {r c d d' : Nat} {X Y X' Y' : Nat → ℝ} {st : St 𝕜} (h : Inv km r c d X Y st) (hd : d ≤ d') (hX : ∀ e, d' ≤ e → X' e = X e) (hY : ∀ e, d' ≤ e → Y' e = Y e) : Inv km r c d' X' Y' st := by
  obtain ⟨h1, h2, h3, h4, h5, h6⟩ := h
  exact ⟨h1, h2, fun e he he' => by rw [hX e he]; exact h3 e (by omega) he', fun e he he' => by rw [hY e he]; exact h4 e (by omega) he', h5, h6⟩

theorem pt_step {xi : Nat → Nat → ℝ} {m a d i i0 : Nat} {X : Nat → ℝ} (hi : i < m) (h : a / m ^ d = i + i0 * m) : pt xi m a (d + 1) X = pt xi m a d (Function.update X d (xi d i)) := by
  funext e
  unfold pt
  by_cases h1 : e < d
  · rw [if_pos (by omega), if_pos h1]
  · rw [if_neg h1]
    by_cases h2 : e = d
    · subst h2
      rw [if_pos (by omega), digit_of_div hi h, Function.update_self]
    · rw [if_neg (by omega), Function.update_of_ne h2]

/-- the two loops for coordinate `d` -/
theorem loop2 {km : KM 𝕜} {rxi cxi : Nat → Nat → ℝ} {r c d : Nat} {g : Nat → Nat → St 𝕜 → R (St 𝕜)} (hm : 0 < km.m) (hd : d < km.dim) (hg : SpecAt km rxi cxi r c d g) :
    SpecAt km rxi cxi r c (d + 1) fun i0 j0 st => forUp 0 km.m (fun i (st : St 𝕜) => do
      let xx ← st.1.set d (rxi d i)
      forUp 0 km.m (fun j (st : St 𝕜) => do
        let yy ← st.2.1.set d (cxi d j)
        g (i + i0 * km.m) (j + j0 * km.m) (st.1, yy, st.2.2)) (xx, st.2)) st := by
  intro i0 j0 X Y st h0 hr hc
  refine Tot.mono (fill_loop (fun st : St 𝕜 => st.2.2) (Inv km r c (d + 1) X Y) (P := fun i a b => ∃ j < km.m, a / km.m ^ d = i + i0 * km.m ∧ b / km.m ^ d = j + j0 * km.m) (s := st)
    (f := fun a b => km.kernel (fun e => pt rxi km.m a (d + 1) X e) (fun e => pt cxi km.m b (d + 1) Y e)) h0 ?_) ?_
  · intro i hi s hs
    have h1 : Inv km r c d (Function.update X d (s.1.v d)) (Function.update Y d (s.2.1.v d)) s := Inv.fixX hs (fun _ => rfl) fun _ => rfl
    refine Tot.bind (setX h1 hd (rxi d i)) fun xx _ hxx => ?_
    rw [Function.update_idem] at hxx
    refine Tot.mono (fill_loop (fun st : St 𝕜 => st.2.2) (fun st => ∃ y, Inv km r c d (Function.update X d (rxi d i)) (Function.update Y d y) st) (P := fun j a b => a / km.m ^ d = i + i0 * km.m ∧ b / km.m ^ d = j + j0 * km.m) (s := (xx, s.2)) (f := fun a b => km.kernel (fun e => pt rxi km.m a (d + 1) X e) (fun e => pt cxi km.m b (d + 1) Y e)) ⟨_, hxx⟩ ?_) ?_
    · rintro j hj s' ⟨y, hs'⟩
      refine Tot.bind (setY hs' hd (cxi d j)) fun yy _ hyy => ?_
      rw [Function.update_idem] at hyy
      refine Tot.mono (hg _ _ _ _ _ hyy (bound_step hi hr) (bound_step hj hc)) fun s2 h => ⟨⟨_, h.1⟩, h.2.congr (fun _ _ => Iff.rfl) fun a b hb => ?_⟩
      rw [pt_step hi hb.1, pt_step hj hb.2]
    · rintro s2 ⟨⟨y, h2⟩, h3⟩
      exact ⟨h2.weaken (by omega) (fun e he => (Function.update_of_ne (by omega) _ _).symm) (fun e he => (Function.update_of_ne (by omega) _ _).symm), h3⟩
  · rintro s2 ⟨h1, h2⟩
    refine ⟨h1, h2.congr (fun a b => ?_) fun _ _ _ => rfl⟩
    rw [← div_step hm, ← div_step hm]
    exact ⟨fun ⟨⟨i, h1, h2⟩, j, h3, h4⟩ => ⟨i, h1, j, h3, h2, h4⟩, fun ⟨i, h1, j, h3, h2, h4⟩ => ⟨⟨i, h1, h2⟩, j, h3, h4⟩⟩

/-- evaluation of the kernel -/
theorem kcell {km : KM 𝕜} {rxi cxi : Nat → Nat → ℝ} {r c : Nat} : SpecAt km rxi cxi r c 0 fun i0 j0 st => (do
    let S ← st.2.2.put i0 j0 (km.kernel (fun d => st.1.v d) (fun d => st.2.1.v d))
    pure (st.1, st.2.1, S)) := by
  intro i0 j0 X Y st h0 hr hc
  rw [pow_zero, Nat.mul_one] at hr hc
  obtain ⟨h1, h2, h3, h4, h5, h6⟩ := h0
  refine Tot.bind (put_ok (by omega) (by omega) _) fun S _ h => Tot.pure ⟨⟨h1, h2, h3, h4, h.1.trans h5, h.2.1.trans h6⟩, h.congr (fun a b => ?_) fun a b _ => ?_⟩
  · rw [pow_zero, Nat.div_one, Nat.div_one]
  · have e1 : (fun e : Fin km.dim => pt rxi km.m a 0 X e) = fun e : Fin km.dim => st.1.v e := by
      funext e
      exact (h3 e (Nat.zero_le _) e.2).symm
    have e2 : (fun e : Fin km.dim => pt cxi km.m b 0 Y e) = fun e : Fin km.dim => st.2.1.v e := by
      funext e
      exact (h4 e (Nat.zero_le _) e.2).symm
    rw [e1, e2]

theorem fillS1_tot {km : KM 𝕜} {rxi cxi : Nat → Nat → ℝ} {r c : Nat} (hm : 0 < km.m) : ∀ d, d < km.dim → SpecAt km rxi cxi r c (d + 1) (KM.fillS1 km rxi cxi (d + 1)) := by
  intro d
  induction d with
  | zero =>
    intro hd i0 j0 X Y st h0 hr hc
    have hrr : st.2.2.rows = r := h0.2.2.2.2.1
    have hcc : st.2.2.cols = c := h0.2.2.2.2.2
    have h := loop2 hm hd (kcell (km := km) (rxi := rxi) (cxi := cxi) (r := r) (c := c)) i0 j0 X Y st h0 hr hc
    obtain ⟨xx, yy, S⟩ := st
    rw [pow_one] at hr hc
    replace hrr : S.rows = r := hrr
    replace hcc : S.cols = c := hcc
    have e1 : (i0 + 1) * km.m = km.m - 1 + i0 * km.m + 1 := by rw [Nat.succ_mul]; omega
    have e2 : (j0 + 1) * km.m = km.m - 1 + j0 * km.m + 1 := by rw [Nat.succ_mul]; omega
    unfold KM.fillS1
    exact Tot.cassert (decide_eq_true ⟨hm, by omega⟩) (Tot.cassert (decide_eq_true ⟨hm, by omega⟩) h)
  | succ d ih =>
    intro hd i0 j0 X Y st h0 hr hc
    have h := loop2 hm hd (ih (by omega)) i0 j0 X Y st h0 hr hc
    unfold KM.fillS1
    exact h

/-- the four loops for the coordinates `d` and `d + 1` -/
theorem loop4_tot {km : KM 𝕜} {rxi cxi : Nat → Nat → ℝ} {r c d : Nat} {g : Nat → Nat → St 𝕜 → R (St 𝕜)} (hm : 0 < km.m) (hd : d + 1 < km.dim) (hg : SpecAt km rxi cxi r c d g) :
    SpecAt km rxi cxi r c (d + 2) fun i0 j0 st => KM.loop4 km rxi cxi d (fun i1 i2 j1 j2 st => g (i1 + km.m * (i2 + km.m * i0)) (j1 + km.m * (j2 + km.m * j0)) st) st := by
  intro i0 j0 X Y st h0 hr hc
  unfold KM.loop4
  have up2 : ∀ (Z : Nat → ℝ) (u v w : ℝ), Function.update (Function.update (Function.update Z (d + 1) u) d v) (d + 1) w = Function.update (Function.update Z (d + 1) w) d v := by
    intro Z u v w
    rw [Function.update_comm (by omega), Function.update_idem, Function.update_comm (by omega)]
  have key : ∀ {xi : Nat → Nat → ℝ} {Z : Nat → ℝ} {a i1 i2 q : Nat} (_ : i1 < km.m) (_ : i2 < km.m) (_ : a / km.m ^ d = i1 + km.m * (i2 + km.m * q)),
      pt xi km.m a (d + 2) Z = pt xi km.m a d (Function.update (Function.update Z (d + 1) (xi (d + 1) i2)) d (xi d i1)) := by
    intro xi Z a i1 i2 q h1 h2 h3
    have h4 : a / km.m ^ d = i1 + (i2 + q * km.m) * km.m := by rw [h3]; ring
    have h5 : a / km.m ^ (d + 1) = i2 + q * km.m := (div_step hm).mp ⟨i1, h1, h4⟩
    rw [pt_step h2 h5, pt_step h1 h4]
  have bnd : ∀ {i1 i2 q s : Nat} (_ : i1 < km.m) (_ : i2 < km.m) (_ : (q + 1) * km.m ^ (d + 2) ≤ s), (i1 + km.m * (i2 + km.m * q) + 1) * km.m ^ d ≤ s := by
    intro i1 i2 q s h1 h2 h3
    have := bound_step h1 (bound_step h2 h3)
    rwa [show km.m * (i2 + km.m * q) = (i2 + q * km.m) * km.m by ring]
  -- the invariants of the loops
  refine Tot.mono (fill_loop (fun st : St 𝕜 => st.2.2) (Inv km r c (d + 2) X Y)
    (P := fun i1 a b => ∃ i2 < km.m, ∃ j1 < km.m, ∃ j2 < km.m, a / km.m ^ d = i1 + km.m * (i2 + km.m * i0) ∧ b / km.m ^ d = j1 + km.m * (j2 + km.m * j0)) (s := st)
    (f := fun a b => km.kernel (fun e => pt rxi km.m a (d + 2) X e) (fun e => pt cxi km.m b (d + 2) Y e)) h0 ?_) ?_
  · intro i1 hi1 s hs
    have h1 := Inv.fixX (Inv.fixX hs (fun _ => rfl) fun _ => rfl) (fun _ => rfl) fun _ => rfl
    refine Tot.bind (setX h1 (by omega) (rxi d i1)) fun xx _ hxx => ?_
    rw [Function.update_idem] at hxx
    refine Tot.mono (fill_loop (fun st : St 𝕜 => st.2.2) (fun st => ∃ x y y', Inv km r c d (Function.update (Function.update X (d + 1) x) d (rxi d i1)) (Function.update (Function.update Y (d + 1) y) d y') st)
      (P := fun i2 a b => ∃ j1 < km.m, ∃ j2 < km.m, a / km.m ^ d = i1 + km.m * (i2 + km.m * i0) ∧ b / km.m ^ d = j1 + km.m * (j2 + km.m * j0)) (s := (xx, s.2)) (f := fun a b => km.kernel (fun e => pt rxi km.m a (d + 2) X e) (fun e => pt cxi km.m b (d + 2) Y e)) ⟨_, _, _, hxx⟩ ?_) ?_
    · rintro i2 hi2 s2 ⟨x, y, y', hs2⟩
      refine Tot.bind (setX hs2 hd (rxi (d + 1) i2)) fun xx _ hxx => ?_
      rw [up2] at hxx
      refine Tot.mono (fill_loop (fun st : St 𝕜 => st.2.2) (fun st => ∃ y y', Inv km r c d (Function.update (Function.update X (d + 1) (rxi (d + 1) i2)) d (rxi d i1)) (Function.update (Function.update Y (d + 1) y) d y') st)
        (P := fun j1 a b => ∃ j2 < km.m, a / km.m ^ d = i1 + km.m * (i2 + km.m * i0) ∧ b / km.m ^ d = j1 + km.m * (j2 + km.m * j0)) (s := (xx, s2.2)) (f := fun a b => km.kernel (fun e => pt rxi km.m a (d + 2) X e) (fun e => pt cxi km.m b (d + 2) Y e)) ⟨_, _, hxx⟩ ?_) ?_
      · rintro j1 hj1 s3 ⟨y, y', hs3⟩
        refine Tot.bind (setY hs3 (by omega) (cxi d j1)) fun yy _ hyy => ?_
        rw [Function.update_idem] at hyy
        refine Tot.mono (fill_loop (fun st : St 𝕜 => st.2.2) (fun st => ∃ y, Inv km r c d (Function.update (Function.update X (d + 1) (rxi (d + 1) i2)) d (rxi d i1)) (Function.update (Function.update Y (d + 1) y) d (cxi d j1)) st)
          (P := fun j2 a b => a / km.m ^ d = i1 + km.m * (i2 + km.m * i0) ∧ b / km.m ^ d = j1 + km.m * (j2 + km.m * j0)) (s := (s3.1, yy, s3.2.2)) (f := fun a b => km.kernel (fun e => pt rxi km.m a (d + 2) X e) (fun e => pt cxi km.m b (d + 2) Y e)) ⟨_, hyy⟩ ?_) ?_
        · rintro j2 hj2 s4 ⟨y, hs4⟩
          refine Tot.bind (setY hs4 hd (cxi (d + 1) j2)) fun yy _ hyy => ?_
          rw [up2] at hyy
          refine Tot.mono (hg _ _ _ _ _ hyy (bnd hi1 hi2 hr) (bnd hj1 hj2 hc)) fun s5 h => ⟨⟨_, h.1⟩, h.2.congr (fun _ _ => Iff.rfl) fun a b hb => ?_⟩
          rw [key hi1 hi2 hb.1, key hj1 hj2 hb.2]
        · rintro s4 ⟨⟨y, h2⟩, h3⟩
          exact ⟨⟨_, _, h2⟩, h3⟩
      · rintro s4 ⟨⟨y, y', h2⟩, h3⟩
        exact ⟨⟨_, _, _, h2⟩, h3⟩
    · rintro s4 ⟨⟨x, y, y', h2⟩, h3⟩
      refine ⟨h2.weaken (by omega) (fun e he => ?_) (fun e he => ?_), h3⟩
      · rw [Function.update_of_ne (by omega), Function.update_of_ne (by omega)]
      · rw [Function.update_of_ne (by omega), Function.update_of_ne (by omega)]
  · rintro s2 ⟨h1, h2⟩
    refine ⟨h1, h2.congr (fun a b => ?_) fun _ _ _ => rfl⟩
    have dv : ∀ a q, a / km.m ^ (d + 2) = q ↔ ∃ i1 < km.m, ∃ i2 < km.m, a / km.m ^ d = i1 + km.m * (i2 + km.m * q) := by
      intro a q
      rw [show d + 2 = d + 1 + 1 from rfl, ← div_step hm]
      constructor
      · rintro ⟨i2, h2, h3⟩
        obtain ⟨i1, h1, h4⟩ := (div_step hm).mpr h3
        exact ⟨i1, h1, i2, h2, by rw [h4]; ring⟩
      · rintro ⟨i1, h1, i2, h2, h3⟩
        exact ⟨i2, h2, (div_step hm).mp ⟨i1, h1, by rw [h3]; ring⟩⟩
    rw [dv, dv]
    exact ⟨fun ⟨⟨i1, h1, i2, h2, h3⟩, j1, h4, j2, h5, h6⟩ => ⟨i1, h1, i2, h2, j1, h4, j2, h5, h3, h6⟩, fun ⟨i1, h1, i2, h2, j1, h4, j2, h5, h3, h6⟩ => ⟨⟨i1, h1, i2, h2, h3⟩, j1, h4, j2, h5, h6⟩⟩

theorem fillS2_tot {km : KM 𝕜} {rxi cxi : Nat → Nat → ℝ} {r c : Nat} (hm : 0 < km.m) : ∀ d, 0 < d → d ≤ km.dim → SpecAt km rxi cxi r c d (KM.fillS2 km rxi cxi d) := by
  intro d
  induction d using Nat.strong_induction_on with
  | _ d ih =>
    intro h0 hd
    match d, h0 with
    | 1, _ =>
      intro i0 j0 X Y st h hr hc
      unfold KM.fillS2
      exact fillS1_tot hm 0 (by omega) i0 j0 X Y st h hr hc
    | 2, _ =>
      intro i0 j0 X Y st h hr hc
      have hrr : st.2.2.rows = r := h.2.2.2.2.1
      have hcc : st.2.2.cols = c := h.2.2.2.2.2
      have k := loop4_tot hm (by omega) (kcell (km := km) (rxi := rxi) (cxi := cxi) (r := r) (c := c)) i0 j0 X Y st h hr hc
      have hmm : 0 < km.m * km.m := Nat.mul_pos hm hm
      have e1 : (i0 + 1) * km.m ^ 2 = km.m * km.m - 1 + i0 * km.m * km.m + 1 := by
        rw [show (i0 + 1) * km.m ^ 2 = i0 * km.m * km.m + km.m * km.m by ring]; omega
      have e2 : (j0 + 1) * km.m ^ 2 = km.m * km.m - 1 + j0 * km.m * km.m + 1 := by
        rw [show (j0 + 1) * km.m ^ 2 = j0 * km.m * km.m + km.m * km.m by ring]; omega
      rw [e1] at hr
      rw [e2] at hc
      unfold KM.fillS2
      exact Tot.cassert (decide_eq_true ⟨hm, by omega⟩) (Tot.cassert (decide_eq_true ⟨hm, by omega⟩) k)
    | d + 3, _ =>
      intro i0 j0 X Y st h hr hc
      unfold KM.fillS2
      exact loop4_tot hm (by omega) (ih (d + 1) (by omega) (by omega) (by omega)) i0 j0 X Y st h hr hc

end H2.Kern
