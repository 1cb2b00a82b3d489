import Verif.Model.FactorTri
import Verif.Proof.FactorEval

set_option linter.unusedSectionVars false
set_option linter.unusedSimpArgs false

namespace H2.Dense
open Spec
variable {K : Type} [Field K] [StarRing K]

/-- work on the columns `lo, …, hi - 1`, one after the other -/
theorem colsLoop {x : Mat} {m0 m : Mem K} {F : Nat → Nat → K} (h : MatBecomes x m0 F m) {lo hi : Nat} (hle : lo ≤ hi) (hhi : hi ≤ x.cols) {G : Nat → Nat → K}
    {body : Nat → Mem K → R (Mem K)}
    (hb : ∀ j, lo ≤ j → j < hi → ∀ m1 F1, MatBecomes x m0 F1 m1 → (∀ i < x.rows, F1 i j = F i j) →
      Tot (body j m1) (MatBecomes x m0 fun i q => if q = j then G i q else F1 i q)) :
    Tot (forUp lo hi body m) (MatBecomes x m0 fun i j => if lo ≤ j ∧ j < hi then G i j else F i j) := by
  refine forUp_tot (fun k m' => MatBecomes x m0 (fun i j => if lo ≤ j ∧ j < k then G i j else F i j) m') hle
    (becomes_congr h fun i _ j _ => by rw [if_neg (by omega)]) ?_
  intro k m' h1 h2 h3
  refine (hb k h1 h2 m' _ h3 fun i _ => if_neg (by omega)).mono fun m2 h4 => becomes_congr h4 fun i _ j _ => ?_
  by_cases e : j = k
  · rw [if_pos e, if_pos (by omega)]
  · rw [if_neg e]
    by_cases e1 : lo ≤ j ∧ j < k
    · rw [if_pos e1, if_pos (by omega)]
    · rw [if_neg e1, if_neg (by omega)]

theorem tri_lower (unit : Bool) (A : Nat → Nat → K) (i j : Nat) :
    tri true unit A i j = if i = j then (if unit = true then 1 else A i i) else if j < i then A i j else 0 := by simp [tri]
theorem tri_upper (unit : Bool) (A : Nat → Nat → K) (i j : Nat) :
    tri false unit A i j = if i = j then (if unit = true then 1 else A i i) else if i < j then A i j else 0 := by simp [tri]

theorem becomes_val {x : Mat} {m0 m : Mem K} {F : Nat → Nat → K} (h : MatBecomes x m0 F m) : MatBecomes x m0 (x.val m) m :=
  ⟨h.1, fun _ _ _ _ => rfl, h.2.2⟩

theorem copyLower_tot {a b : Mat} {m : Mem K} (ha : a.Valid m) (hb : b.Valid m) (hd : Disj a.Cell b.Cell) (unit : Bool) :
    Tot (copyLower a unit b m) (MatBecomes b m fun i j => if i < min a.rows b.rows then
      (if j < a.cols then tri true unit (a.val m) i j else 0) else b.val m i j) := by
  unfold copyLower
  simp only
  refine Tot.bind (colsLoop (becomes_self hb) (Nat.zero_le _) (Nat.min_le_right _ _) (G := fun i j => if i < min a.rows b.rows then
    tri true unit (a.val m) i j else b.val m i j) fun j _ hj m1 F1 h1 e1 => ?_) fun m1 _ h1 => ?_
  · have hj' : j < a.cols ∧ j < b.cols := by omega
    obtain ⟨n, hn⟩ : ∃ n, n = min a.rows b.rows := ⟨_, rfl⟩
    have hn' : n ≤ a.rows ∧ n ≤ b.rows := by omega
    rw [← hn]
    refine Tot.bind (colLineLoop h1 hj'.2 (Nat.zero_le _) (show min n j ≤ b.rows by omega) (new := fun _ => 0) fun i _ hi m2 G h2 _ => rfl) fun m2 _ h2 => ?_
    refine Tot.bind (P := fun st : Nat × Mem K => st.1 = (if unit = true ∧ j < n then j + 1 else min n j) ∧
      MatBecomes b m (fun i q => if q = j ∧ i < st.1 then (if i = j then 1 else 0) else F1 i q) st.2) ?_ fun st _ h3 => ?_
    · by_cases hc : unit = true ∧ j < n
      · rw [if_pos (show (unit && decide (min n j < n) && decide (min n j = j)) = true by
          simp only [Bool.and_eq_true, decide_eq_true_eq]; exact ⟨⟨hc.1, by omega⟩, by omega⟩)]
        have e : min n j = j := by omega
        rw [e] at h2 ⊢
        refine Tot.bind (becomes_write h2 (show j < b.rows by omega) hj'.2 1) fun m3 _ h3 => Tot.pure ⟨(if_pos hc).symm, becomes_congr h3 fun i _ q _ => ?_⟩
        by_cases e1 : i = j ∧ q = j
        · rw [e1.1, e1.2, fset_same, if_pos ⟨rfl, by omega⟩, if_pos rfl]
        · rw [fset_ne e1]
          by_cases e2 : q = j ∧ 0 ≤ i ∧ i < j
          · rw [if_pos e2, if_pos (by omega), if_neg (by omega)]
          · rw [if_neg e2, if_neg (by simp only; omega)]
      · rw [if_neg (show ¬ (unit && decide (min n j < n) && decide (min n j = j)) = true by
          simp only [Bool.and_eq_true, decide_eq_true_eq]; rintro ⟨⟨h1, h2⟩, h3⟩; exact hc ⟨h1, by omega⟩)]
        refine Tot.pure ⟨(if_neg hc).symm, becomes_congr h2 fun i _ q _ => ?_⟩
        simp only
        by_cases e2 : q = j ∧ 0 ≤ i ∧ i < min n j
        · rw [if_pos e2, if_pos (by omega), if_neg (by omega)]
        · rw [if_neg e2, if_neg (by omega)]
    · obtain ⟨p, m3⟩ := st
      obtain ⟨hp, h3⟩ := h3
      simp only at hp h3 ⊢
      refine (colLineLoop h3 hj'.2 (show p ≤ n by rw [hp]; split_ifs <;> omega) (show n ≤ b.rows by omega) (new := fun i => a.val m i j) fun i hi1 hi2 m4 G h4 _ => ?_).mono
        fun m4 h4 => becomes_congr h4 fun i hi q _ => ?_
      · obtain ⟨e1, e2⟩ := hA_of ha hd (show i < a.rows by omega) hj'.1
        rw [becomes_read_cell h4 e1 e2, ok_bind]
      · by_cases eq : q = j
        · subst eq
          by_cases c1 : p ≤ i ∧ i < n
          · rw [if_pos ⟨rfl, c1⟩, if_pos rfl, if_pos c1.2]
            rw [tri_lower]
            by_cases c2 : i = q
            · rw [if_pos c2]
              have : ¬ (unit = true ∧ q < n) := fun h => by rw [if_pos h] at hp; omega
              rw [if_neg (show ¬ unit = true from fun h => this ⟨h, by omega⟩), c2]
            · rw [if_neg c2, if_pos]
              split_ifs at hp <;> omega
          · rw [if_neg (show ¬ (q = q ∧ p ≤ i ∧ i < n) from fun h => c1 h.2), if_pos rfl]
            by_cases c2 : i < p
            · have c3 : i < n := by split_ifs at hp <;> omega
              rw [if_pos ⟨rfl, c2⟩, if_pos c3]
              rw [tri_lower]
              by_cases c4 : i = q
              · rw [if_pos c4, if_pos c4, if_pos]
                by_contra hu
                rw [if_neg (fun h => hu h.1)] at hp
                omega
              · rw [if_neg c4, if_neg c4, if_neg]
                split_ifs at hp <;> omega
            · rw [if_neg (fun h => c2 h.2), if_neg (by omega), e1 i hi]
        · rw [if_neg (fun h => eq h.1), if_neg (fun h => eq h.1), if_neg eq]
  · refine (colsLoop h1 (Nat.min_le_right _ _) le_rfl (G := fun i j => if i < min a.rows b.rows then 0 else b.val m i j) fun j hj1 hj2 m2 F2 h2 e2 => ?_).mono
      fun m2 h2 => becomes_congr h2 fun i _ j hj => ?_
    · refine (colLineLoop h2 hj2 (Nat.zero_le _) (Nat.min_le_right _ _) (new := fun _ => 0) fun i _ hi m3 G h3 _ => rfl).mono fun m3 h3 => becomes_congr h3 fun i hi q _ => ?_
      by_cases eq : q = j
      · subst eq
        by_cases c1 : i < min a.rows b.rows
        · rw [if_pos ⟨rfl, Nat.zero_le _, c1⟩, if_pos rfl, if_pos c1]
        · rw [if_neg (fun h => c1 h.2.2), if_pos rfl, if_neg c1, e2 i hi, if_neg (by omega)]
      · rw [if_neg (fun h => eq h.1), if_neg eq]
    · by_cases c : i < min a.rows b.rows
      · simp only [c, if_true]
        by_cases c2 : min a.cols b.cols ≤ j ∧ j < b.cols
        · rw [if_pos c2, if_neg (by omega)]
        · rw [if_neg c2, if_pos (by omega), if_pos (by omega)]
      · simp only [c, if_false, ite_self]

theorem copyUpper_tot {a b : Mat} {m : Mem K} (ha : a.Valid m) (hb : b.Valid m) (hd : Disj a.Cell b.Cell) (unit : Bool) :
    Tot (copyUpper a unit b m) (MatBecomes b m fun i j => if j < a.cols then
      (if i < a.rows then tri false unit (a.val m) i j else 0) else b.val m i j) := by
  unfold copyUpper
  simp only
  refine (colsLoop (becomes_self hb) (Nat.zero_le _) (Nat.min_le_right _ _) (G := fun i j => if i < a.rows then
    tri false unit (a.val m) i j else 0) fun j _ hj m1 F1 h1 e1 => ?_).mono fun m1 h1 => becomes_congr h1 fun i _ j hj => ?_
  · have hj' : j < a.cols ∧ j < b.cols := by omega
    obtain ⟨n, hn⟩ : ∃ n, n = min a.rows b.rows := ⟨_, rfl⟩
    have hn' : n ≤ a.rows ∧ n ≤ b.rows := by omega
    rw [← hn]
    obtain ⟨l, hl⟩ : ∃ l, l = if unit = true then min n j else min n (j + 1) := ⟨_, rfl⟩
    have hl1 : l ≤ n ∧ l ≤ j + 1 ∧ (unit = true → l ≤ j) := by split_ifs at hl with hu <;> exact ⟨by omega, by omega, fun _ => by first | omega | contradiction⟩
    rw [← hl]
    refine Tot.bind (colLineLoop h1 hj'.2 (Nat.zero_le _) (show l ≤ b.rows by omega) (new := fun i => a.val m i j) fun i _ hi m2 G h2 _ => ?_) fun m2 _ h2 => ?_
    · obtain ⟨e1, e2⟩ := hA_of ha hd (show i < a.rows by omega) hj'.1
      rw [becomes_read_cell h2 e1 e2, ok_bind]
    refine Tot.bind (P := fun st : Nat × Mem K => st.1 = min n (j + 1) ∧
      MatBecomes b m (fun i q => if q = j ∧ i < st.1 then tri false unit (a.val m) i j else F1 i q) st.2) ?_ fun st _ h3 => ?_
    · by_cases hc : unit = true ∧ j < n
      · rw [if_pos hc.1] at hl
        have e : l = j := by omega
        rw [if_pos (show (unit && decide (l < n) && decide (l = j)) = true by
          simp only [Bool.and_eq_true, decide_eq_true_eq]; exact ⟨⟨hc.1, by omega⟩, by omega⟩)]
        rw [e] at h2 ⊢
        refine Tot.bind (becomes_write h2 (show j < b.rows by omega) hj'.2 1) fun m3 _ h3 => Tot.pure ⟨by simp only; omega, becomes_congr h3 fun i _ q _ => ?_⟩
        by_cases e1 : i = j ∧ q = j
        · rw [e1.1, e1.2, fset_same, if_pos ⟨rfl, by omega⟩]
          rw [tri_upper]
          rw [if_pos rfl, if_pos hc.1]
        · rw [fset_ne e1]
          by_cases e2 : q = j ∧ 0 ≤ i ∧ i < j
          · rw [if_pos e2, if_pos (by omega)]
            rw [tri_upper]
            rw [if_neg (by omega), if_pos e2.2.2]
          · rw [if_neg e2, if_neg (by simp only; omega)]
      · rw [if_neg (show ¬ (unit && decide (l < n) && decide (l = j)) = true by
          simp only [Bool.and_eq_true, decide_eq_true_eq]; rintro ⟨⟨h1, h2⟩, h3⟩; exact hc ⟨h1, by omega⟩)]
        have hl2 : l = min n (j + 1) := by
          split_ifs at hl with hu
          · have : ¬ j < n := fun h => hc ⟨hu, h⟩
            omega
          · exact hl
        refine Tot.pure ⟨hl2, becomes_congr h2 fun i _ q _ => ?_⟩
        simp only
        by_cases e2 : q = j ∧ 0 ≤ i ∧ i < l
        · rw [if_pos e2, if_pos (by omega)]
          rw [tri_upper]
          by_cases c4 : i = j
          · rw [if_pos c4, if_neg (fun h => by have := hl1.2.2 h; omega), c4]
          · rw [if_neg c4, if_pos (by omega)]
        · rw [if_neg e2, if_neg (by omega)]
    · obtain ⟨p, m3⟩ := st
      obtain ⟨hp, h3⟩ := h3
      simp only at hp h3 ⊢
      refine (colLineLoop h3 hj'.2 (show p ≤ b.rows by omega) le_rfl (new := fun i => 0) fun i hi1 hi2 m4 G h4 _ => rfl).mono
        fun m4 h4 => becomes_congr h4 fun i hi q _ => ?_
      by_cases eq : q = j
      · subst eq
        by_cases c1 : p ≤ i
        · rw [if_pos ⟨rfl, c1, hi⟩, if_pos rfl]
          by_cases c2 : i < a.rows
          · rw [if_pos c2]
            rw [tri_upper]
            rw [if_neg (by omega), if_neg (by omega)]
          · rw [if_neg c2]
        · rw [if_neg (by omega), if_pos ⟨rfl, by omega⟩, if_pos rfl, if_pos (by omega)]
      · rw [if_neg (fun h => eq h.1), if_neg (fun h => eq h.1), if_neg eq]
  · by_cases c : j < a.cols
    · rw [if_pos (by omega), if_pos c]
    · rw [if_neg (by omega), if_neg c]

/-- add to a column of a rectangle -/
theorem offColLoop {c : Mat} {m0 m : Mem K} {F : Nat → Nat → K} (h : MatBecomes c m0 F m) {r off n : Nat} (hr : r < c.cols) (hn : off + n ≤ c.rows)
    {u : Nat → K} {body : Nat → Mem K → R (Mem K)}
    (hb : ∀ i < n, ∀ m1 G, MatBecomes c m0 G m1 → G (off + i) r = F (off + i) r → body i m1 = m1.write (c.addr (off + i) r) (F (off + i) r + u (off + i))) :
    Tot (forUp 0 n body m) (MatBecomes c m0 fun i j => if j = r ∧ off ≤ i ∧ i < off + n then F i j + u i else F i j) := by
  refine forUp_tot (fun k m' => MatBecomes c m0 (fun i j => if j = r ∧ off ≤ i ∧ i < off + k then F i j + u i else F i j) m') (Nat.zero_le _)
    (becomes_congr h fun i _ j _ => by rw [if_neg (by omega)]) ?_
  intro k m' _ h2 h3
  rw [hb k h2 m' _ h3 (if_neg (by omega))]
  refine (becomes_write h3 (show off + k < c.rows by omega) hr _).mono fun m2 h4 => becomes_congr h4 fun i _ j _ => ?_
  by_cases e : i = off + k ∧ j = r
  · rw [e.1, e.2, fset_same, if_pos ⟨rfl, by omega, by omega⟩]
  · rw [fset_ne e]
    by_cases e1 : j = r ∧ off ≤ i ∧ i < off + k
    · rw [if_pos e1, if_pos (by omega)]
    · rw [if_neg e1, if_neg (by omega)]

/-- add to a rectangle -/
theorem offRectLoop {c : Mat} {m0 m : Mem K} {F : Nat → Nat → K} (h : MatBecomes c m0 F m) {ro rn co cn : Nat} (hrn : ro + rn ≤ c.rows) (hcn : co + cn ≤ c.cols)
    {u : Nat → Nat → K} {body : Nat → Nat → Mem K → R (Mem K)}
    (hb : ∀ i < rn, ∀ k < cn, ∀ m1 G, MatBecomes c m0 G m1 → G (ro + i) (co + k) = F (ro + i) (co + k) →
      body k i m1 = m1.write (c.addr (ro + i) (co + k)) (F (ro + i) (co + k) + u (ro + i) (co + k))) :
    Tot (forUp 0 cn (fun k m => forUp 0 rn (fun i m => body k i m) m) m)
      (MatBecomes c m0 fun i j => if (ro ≤ i ∧ i < ro + rn) ∧ co ≤ j ∧ j < co + cn then F i j + u i j else F i j) := by
  refine forUp_tot (fun k m' => MatBecomes c m0 (fun i j => if (ro ≤ i ∧ i < ro + rn) ∧ co ≤ j ∧ j < co + k then F i j + u i j else F i j) m') (Nat.zero_le _)
    (becomes_congr h fun i _ j _ => by rw [if_neg (by omega)]) ?_
  intro k m' _ h2 h3
  refine (offColLoop h3 (show co + k < c.cols by omega) hrn (u := fun i => u i (co + k)) fun i hi m1 G h4 h5 => ?_).mono fun m2 h4 => becomes_congr h4 fun i _ j _ => ?_
  · rw [if_neg (by omega)] at h5 ⊢
    exact hb i hi k h2 m1 G h4 h5
  · by_cases e : j = co + k
    · subst e
      by_cases e1 : ro ≤ i ∧ i < ro + rn
      · rw [if_pos ⟨rfl, e1⟩, if_neg (by omega), if_pos (by omega)]
      · rw [if_neg (fun h => e1 h.2), if_neg (by omega), if_neg (by omega)]
    · rw [if_neg (fun h => e h.1)]
      by_cases e1 : (ro ≤ i ∧ i < ro + rn) ∧ co ≤ j ∧ j < co + k
      · rw [if_pos e1, if_pos (by omega)]
      · rw [if_neg e1, if_neg (by omega)]

theorem triRange_le (lower : Bool) (n j : Nat) : (triRange lower n j).2 = 0 ∨ (triRange lower n j).1 + (triRange lower n j).2 ≤ n := by
  unfold triRange
  cases lower <;> simp <;> omega

theorem triRange_mem (lower : Bool) {n i : Nat} (hi : i < n) (j : Nat) :
    ((triRange lower n j).1 ≤ i ∧ i < (triRange lower n j).1 + (triRange lower n j).2) ↔ (if lower then j ≤ i else i ≤ j) := by
  unfold triRange
  cases lower <;> simp <;> omega

theorem op_tri_range (trans lower : Bool) (A : Nat → Nat → K) (i j : Nat) :
    op trans (tri lower false A) i j = if (if lower != trans then j ≤ i else i ≤ j) then op trans A i j else 0 := by
  rw [op_tri]
  by_cases e : i = j
  · subst e
    simp
  · rw [if_neg e]
    cases lower <;> cases trans <;> simp [lt_iff_le_and_ne, e, Ne.symm e]

theorem triaddmul_tot {a b c : Mat} {m : Mem K} (ha : a.Valid m) (hb : b.Valid m) (hc : c.Valid m) (hac : Disj a.Cell c.Cell) (hbc : Disj b.Cell c.Cell)
    (alpha : K) (alower at' blower bt : Bool) (h1 : c.rows = opRows at' a) (h2 : opCols at' a = opRows bt b) (h3 : c.cols = opCols bt b) :
    Tot (triaddmul alpha alower at' a blower bt b c m) (MatBecomes c m fun i k => c.val m i k +
      alpha * ∑ j ∈ Finset.range (opCols at' a), op at' (tri alower false (a.val m)) i j * op bt (tri blower false (b.val m)) j k) := by
  unfold triaddmul
  refine Tot.cassert (by simpa [opRows] using h1) (Tot.cassert (by simpa [opCols, opRows] using h2) (Tot.cassert (by simpa [opCols] using h3) ?_))
  have hN : (if at' then a.rows else a.cols) = opCols at' a := by simp [opCols]
  rw [hN]
  refine (forUp_tot (fun n m' => MatBecomes c m (fun i k => c.val m i k +
      alpha * ∑ j ∈ Finset.range n, op at' (tri alower false (a.val m)) i j * op bt (tri blower false (b.val m)) j k) m') (Nat.zero_le _)
    (becomes_congr (becomes_self hc) fun i _ j _ => by simp) ?_)
  intro j m1 _ hj hF
  obtain ⟨ra, hra⟩ : ∃ r, r = if at' then triRange (!alower) a.cols j else triRange alower a.rows j := ⟨_, rfl⟩
  obtain ⟨rb, hrb⟩ : ∃ r, r = if bt then triRange blower b.rows j else triRange (!blower) b.cols j := ⟨_, rfl⟩
  have hra' : ra = triRange (alower != at') c.rows j := by rw [hra, h1]; cases at' <;> cases alower <;> rfl
  have hrb' : rb = triRange (blower == bt) c.cols j := by rw [hrb, h3]; cases bt <;> cases blower <;> rfl
  simp only
  rw [← hra, ← hrb]
  rcases triRange_le (alower != at') c.rows j with e | hle1
  · rw [← hra'] at e
    rw [e]
    have em : forUp 0 rb.2 (fun k m => forUp 0 0 (fun i m => do
        let x ← m.read (if at' = true then a.addr j (ra.1 + i) else a.addr (ra.1 + i) j)
        let y ← m.read (if bt = true then b.addr (rb.1 + k) j else b.addr j (rb.1 + k))
        let v ← m.read (c.addr (ra.1 + i) (rb.1 + k))
        m.write (c.addr (ra.1 + i) (rb.1 + k)) (v + alpha * (if at' = true then star x else x) * if bt = true then star y else y)) m) m1 = .ok m1 := by
      obtain ⟨m2, h4, h5⟩ := forUp_tot (lo := 0) (hi := rb.2) (s := m1) (body := fun k m => forUp 0 0 (fun i m => do
        let x ← m.read (if at' = true then a.addr j (ra.1 + i) else a.addr (ra.1 + i) j)
        let y ← m.read (if bt = true then b.addr (rb.1 + k) j else b.addr j (rb.1 + k))
        let v ← m.read (c.addr (ra.1 + i) (rb.1 + k))
        m.write (c.addr (ra.1 + i) (rb.1 + k)) (v + alpha * (if at' = true then star x else x) * if bt = true then star y else y)) m) (fun _ m2 => m2 = m1) (Nat.zero_le _) rfl
        (fun k m2 _ _ h => ⟨m2, forUp_nop le_rfl _ _, h⟩)
      rw [h4, h5]
    refine ⟨m1, em, becomes_congr hF fun i hi k _ => ?_⟩
    have h4 := triRange_mem (alower != at') hi j
    rw [← hra', e] at h4
    rw [Finset.sum_range_succ, op_tri_range, if_neg (fun h => by have := h4.mpr h; omega), zero_mul, add_zero]
  rcases triRange_le (blower == bt) c.cols j with e | hle2
  · rw [← hrb'] at e
    rw [e]
    refine ⟨m1, forUp_nop le_rfl _ _, becomes_congr hF fun i hi k hk => ?_⟩
    have h4 := triRange_mem (blower == bt) hk j
    rw [← hrb', e] at h4
    rw [Finset.sum_range_succ, op_tri_range bt blower, if_neg, mul_zero, add_zero]
    intro h
    have h5 : ¬ (if (blower == bt) = true then j ≤ k else k ≤ j) := fun h => by have := h4.mpr h; omega
    apply h5
    cases blower <;> cases bt <;> simpa using h
  rw [← hra'] at hle1
  rw [← hrb'] at hle2
  refine (offRectLoop hF hle1 hle2 (u := fun i k => alpha * (op at' (a.val m) i j * op bt (b.val m) j k)) fun i hi k hk m2 G h4 h5 => ?_).mono fun m2 h4 => becomes_congr h4 fun i hi k hk => ?_
  · have ea : m2.read (if at' = true then a.addr j (ra.1 + i) else a.addr (ra.1 + i) j) = .ok (if at' = true then a.val m j (ra.1 + i) else a.val m (ra.1 + i) j) := by
      cases at'
      · obtain ⟨e1, e2⟩ := hA_of ha hac (show ra.1 + i < a.rows by simp [opRows] at h1; omega) (show j < a.cols by simpa [opCols] using hj)
        simpa using becomes_read_cell h4 e1 e2
      · obtain ⟨e1, e2⟩ := hA_of ha hac (show j < a.rows by simpa [opCols] using hj) (show ra.1 + i < a.cols by simp [opRows] at h1; omega) 
        simpa using becomes_read_cell h4 e1 e2
    have eb : m2.read (if bt = true then b.addr (rb.1 + k) j else b.addr j (rb.1 + k)) = .ok (if bt = true then b.val m (rb.1 + k) j else b.val m j (rb.1 + k)) := by
      rw [h2] at hj
      cases bt
      · obtain ⟨e1, e2⟩ := hA_of hb hbc (show j < b.rows by simpa [opRows] using hj) (show rb.1 + k < b.cols by simp [opCols] at h3; omega)
        simpa using becomes_read_cell h4 e1 e2
      · obtain ⟨e1, e2⟩ := hA_of hb hbc (show rb.1 + k < b.rows by simp [opCols] at h3; omega) (show j < b.cols by simpa [opRows] using hj)
        simpa using becomes_read_cell h4 e1 e2
    rw [ea, ok_bind, eb, ok_bind, becomes_read h4 (by omega) (by omega), ok_bind, h5]
    congr 2
    rw [mul_assoc]
    congr 2
    · cases at' <;> simp [op]
    · cases bt <;> simp [op]
  · rw [Finset.sum_range_succ, mul_add, ← add_assoc, op_tri_range at', op_tri_range bt]
    have e1 := triRange_mem (alower != at') hi j
    have e2 := triRange_mem (blower == bt) hk j
    rw [← hra'] at e1
    rw [← hrb'] at e2
    have e3 : (if (blower == bt) = true then j ≤ k else k ≤ j) ↔ (if (blower != bt) = true then k ≤ j else j ≤ k) := by cases blower <;> cases bt <;> simp
    rw [e3] at e2
    by_cases c1 : (ra.1 ≤ i ∧ i < ra.1 + ra.2)
    · by_cases c2 : rb.1 ≤ k ∧ k < rb.1 + rb.2
      · rw [if_pos ⟨c1, c2⟩, if_pos (e1.mp c1), if_pos (e2.mp c2)]
      · rw [if_neg (fun h => c2 h.2), if_neg (fun h => c2 (e2.mpr h)), mul_zero, mul_zero, add_zero]
    · rw [if_neg (fun h => c1 h.1), if_neg (fun h => c1 (e1.mpr h)), zero_mul, mul_zero, add_zero]

end H2.Dense
