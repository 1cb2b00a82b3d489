import Verif.Spec.Surface
import Mathlib.Tactic.LinearCombination

set_option linter.unusedSectionVars false

/-! Checking surface meshes. -/

namespace H2.Surf
open Spec

/-- two nested loops -/
theorem loop2 {σ : Type _} {n c : Nat} {body : Nat → Nat → σ → R σ} {s : σ} (I : Nat → Nat → σ → Prop) (h0 : I 0 0 s)
    (hb : ∀ i j s, i < n → j < c → I i j s → Tot (body i j s) (I i (j + 1))) (hn : ∀ i s, i < n → I i c s → I (i + 1) 0 s) :
    Tot (forUp 0 n (fun i s => forUp 0 c (fun j s => body i j s) s) s) (I n 0) := by
  refine forUp_tot (fun i s => I i 0 s) (Nat.zero_le _) h0 fun i s _ hi h => ?_
  refine Tot.mono (forUp_tot (fun j s => I i j s) (Nat.zero_le _) h fun j t _ hj ht => hb i j t hi hj ht) fun t ht => hn i t hi ht

theorem get3_ok {α : Type} {a : Arr α} {i : Nat} (h : 3 * i + 2 < a.n) : get3 a i = .ok (a.v (3 * i), a.v (3 * i + 1), a.v (3 * i + 2)) := by
  unfold get3
  rw [Arr.get_ok (by omega), ok_bind, Arr.get_ok (by omega), ok_bind, Arr.get_ok h, ok_bind]
  rfl

theorem set3_ok {α : Type} {a : Arr α} {i : Nat} {p q r : α} (h : 3 * i + 2 < a.n) :
    set3 a i p q r = .ok ⟨a.n, fun k => if k = 3 * i + 2 then r else if k = 3 * i + 1 then q else if k = 3 * i then p else a.v k⟩ := by
  unfold set3
  rw [Arr.set_ok (by omega), ok_bind, Arr.set_ok (by exact (by omega : 3 * i + 1 < a.n)), ok_bind, Arr.set_ok (by exact h)]

/-- The number of problems counts violated conditions. -/
theorem checkEdges_tot {m : Surf} (hs : SurfSized m) : Tot (checkEdges m) fun p => p = 0 ↔ ∀ f < m.edges, ∀ k < 2, sendp m f k < m.vertices := by
  unfold checkEdges
  refine Tot.mono (loop2 (fun i j p => p = 0 ↔ (∀ f < i, ∀ k < 2, sendp m f k < m.vertices) ∧ ∀ k < j, sendp m i k < m.vertices) ?_ ?_ ?_) ?_
  · simp
  · intro i j p hi hj h
    have := hs.e
    beta_reduce
    rw [Arr.get_ok (by omega), ok_bind]
    refine Tot.pure ?_
    show ((if sendp m i j ≥ m.vertices then p + 1 else p) = 0) ↔ _
    by_cases hv : sendp m i j ≥ m.vertices
    · rw [if_pos hv]
      refine ⟨fun h => absurd h (by omega), fun h => ?_⟩
      have := h.2 j (by omega)
      omega
    · rw [if_neg hv, h]
      refine ⟨fun h => ⟨h.1, fun k hk => ?_⟩, fun h => ⟨h.1, fun k hk => h.2 k (by omega)⟩⟩
      rcases Nat.lt_or_eq_of_le (Nat.le_of_lt_succ hk) with hh | hh
      · exact h.2 k hh
      · subst hh; omega
  · intro i p hi h
    rw [h]
    refine ⟨fun h => ⟨fun f hf k hk => ?_, fun k hk => absurd hk (by omega)⟩, fun h => ⟨fun f hf => h.1 f (by omega), fun k hk => h.1 i (by omega) k hk⟩⟩
    rcases Nat.lt_or_eq_of_le (Nat.le_of_lt_succ hf) with hh | hh
    · exact h.1 f hh k hk
    · subst hh; exact h.2 k hk
  · intro p h
    rw [h]
    exact ⟨fun h => h.1, fun h => ⟨h, fun k hk => absurd hk (by omega)⟩⟩

theorem checkSlot_tot {m : Surf} (hs : SurfSized m) {i j : Nat} (hi : i < m.triangles) (hj : j < 3) (p : Nat) :
    Tot (checkSlot m i j p) fun q => q = 0 ↔ p = 0 ∧ corner m i j < m.vertices ∧ sedge m i j < m.edges ∧ (Forward m i j ∨ Backward m i j) := by
  have := hs.t
  have := hs.s
  have := hs.e
  have h1 : (j + 1) % 3 < 3 := Nat.mod_lt _ (by norm_num)
  have h2 : (j + 2) % 3 < 3 := Nat.mod_lt _ (by norm_num)
  unfold checkSlot
  rw [Arr.get_ok (by omega), ok_bind]
  simp only
  rw [Arr.get_ok (by omega), ok_bind]
  have e1 : m.t.v (3 * i + j) = corner m i j := rfl
  have e2 : m.s.v (3 * i + j) = sedge m i j := rfl
  rw [e1, e2]
  have hp : ((if corner m i j ≥ m.vertices then p + 1 else p) = 0) ↔ p = 0 ∧ corner m i j < m.vertices := by
    by_cases hc : corner m i j ≥ m.vertices
    · rw [if_pos hc]
      exact ⟨fun h => absurd h (Nat.succ_ne_zero _), fun h => absurd h.2 (by omega)⟩
    · rw [if_neg hc]
      exact ⟨fun h => ⟨h, by omega⟩, fun h => h.1⟩
  generalize (if corner m i j ≥ m.vertices then p + 1 else p) = p' at *
  by_cases hf : sedge m i j ≥ m.edges
  · rw [if_pos hf]
    exact Tot.pure ⟨fun h => absurd h (Nat.succ_ne_zero _), fun h => absurd h.2.2.1 (by omega)⟩
  · rw [if_neg hf, Arr.get_ok (by omega), ok_bind, Arr.get_ok (by omega), ok_bind]
    have g0 : m.e.v (2 * sedge m i j) = sendp m (sedge m i j) 0 := rfl
    have g1 : m.e.v (2 * sedge m i j + 1) = sendp m (sedge m i j) 1 := rfl
    have c1 : m.t.v (3 * i + (j + 1) % 3) = corner m i ((j + 1) % 3) := rfl
    have c2 : m.t.v (3 * i + (j + 2) % 3) = corner m i ((j + 2) % 3) := rfl
    rw [g0, c1]
    unfold Forward Backward
    by_cases ha : sendp m (sedge m i j) 0 = corner m i ((j + 1) % 3)
    · rw [if_pos ha, Arr.get_ok (by omega), ok_bind, Arr.get_ok (by omega), ok_bind, g1, c2]
      refine Tot.pure ?_
      split_ifs with hb
      · refine ⟨fun h => False.elim h, fun h => ?_⟩
        rcases h.2.2.2 with hh | hh
        · exact absurd hh.2 hb
        · exact absurd (hh.2.trans (ha.symm.trans hh.1)) hb
      · rw [hp]
        have hb' := not_ne_iff.mp hb
        exact ⟨fun h => ⟨h.1, h.2, by omega, .inl ⟨ha, hb'⟩⟩, fun h => ⟨h.1, h.2.1⟩⟩
    · rw [if_neg ha, Arr.get_ok (by omega), ok_bind, c2]
      by_cases hb : sendp m (sedge m i j) 0 ≠ corner m i ((j + 2) % 3)
      · rw [if_pos hb]
        refine Tot.pure ⟨fun h => absurd h (Nat.succ_ne_zero _), fun h => ?_⟩
        rcases h.2.2.2 with hh | hh
        · exact absurd hh.1 ha
        · exact absurd hh.1 hb
      · rw [if_neg hb, Arr.get_ok (by omega), ok_bind, g1]
        refine Tot.pure ?_
        have hb' := not_ne_iff.mp hb
        split_ifs with hc
        · refine ⟨fun h => False.elim h, fun h => ?_⟩
          rcases h.2.2.2 with hh | hh
          · exact absurd hh.1 ha
          · exact absurd hh.2 hc
        · rw [hp]
          have hc' := not_ne_iff.mp hc
          exact ⟨fun h => ⟨h.1, h.2, by omega, .inr ⟨hb', hc'⟩⟩, fun h => ⟨h.1, h.2.1⟩⟩

theorem check_tot {m : Surf} (hs : SurfSized m) : Tot (check m) fun p => p = 0 ↔ SurfOk m := by
  unfold check
  refine Tot.bind (checkEdges_tot hs) fun p0 _ h0 => ?_
  let G := fun i k => corner m i k < m.vertices ∧ sedge m i k < m.edges ∧ (Forward m i k ∨ Backward m i k)
  refine Tot.mono (loop2 (fun i j p => p = 0 ↔ p0 = 0 ∧ (∀ i' < i, ∀ k < 3, G i' k) ∧ ∀ k < j, G i k) ?_ ?_ ?_) ?_
  · simp
  · intro i j p hi hj h
    refine Tot.mono (checkSlot_tot hs hi hj p) fun q hq => ?_
    rw [hq, h]
    refine ⟨fun ⟨⟨a, b, c⟩, d⟩ => ⟨a, b, fun k hk => ?_⟩, fun ⟨a, b, c⟩ => ⟨⟨a, b, fun k hk => c k (by omega)⟩, c j (by omega)⟩⟩
    rcases Nat.lt_or_eq_of_le (Nat.le_of_lt_succ hk) with hh | hh
    · exact c k hh
    · subst hh; exact d
  · intro i p hi h
    rw [h]
    refine ⟨fun ⟨a, b, c⟩ => ⟨a, fun f hf k hk => ?_, fun k hk => absurd hk (by omega)⟩,
      fun ⟨a, b, c⟩ => ⟨a, fun f hf => b f (by omega), fun k hk => b i (by omega) k hk⟩⟩
    rcases Nat.lt_or_eq_of_le (Nat.le_of_lt_succ hf) with hh | hh
    · exact b f hh k hk
    · subst hh; exact c k hk
  · intro p h
    rw [h, h0]
    refine ⟨fun ⟨a, b, _⟩ => ⟨hs, a, fun i hi k hk => (b i hi k hk).1, fun i hi k hk => (b i hi k hk).2.1, fun i hi k hk => (b i hi k hk).2.2⟩,
      fun h => ⟨h.ends, fun i hi k hk => ⟨h.corners i hi k hk, h.edges i hi k hk, h.match' i hi k hk⟩, fun k hk => absurd hk (by omega)⟩⟩

/-! ## Counting -/

/-- partial sums of nested loops -/
def cnt {M : Type _} [AddCommMonoid M] (F : Nat → Nat → M) (i j : Nat) : M := ∑ i' ∈ Finset.range i, ∑ k ∈ Finset.range 3, F i' k + ∑ k ∈ Finset.range j, F i k

theorem cnt_zero {M : Type _} [AddCommMonoid M] (F : Nat → Nat → M) : cnt F 0 0 = 0 := by simp [cnt]
theorem cnt_step {M : Type _} [AddCommMonoid M] (F : Nat → Nat → M) (i j : Nat) : cnt F i (j + 1) = cnt F i j + F i j := by
  unfold cnt; rw [Finset.sum_range_succ, add_assoc]
theorem cnt_next {M : Type _} [AddCommMonoid M] (F : Nat → Nat → M) (i : Nat) : cnt F (i + 1) 0 = cnt F i 3 := by
  unfold cnt; rw [Finset.sum_range_succ, Finset.sum_range_zero, add_zero]
theorem cnt_full {M : Type _} [AddCommMonoid M] (F : Nat → Nat → M) (n : Nat) : cnt F n 0 = ∑ i ∈ Finset.range n, ∑ k ∈ Finset.range 3, F i k := by
  unfold cnt; rw [Finset.sum_range_zero, add_zero]

theorem count_loop {n : Nat} {body : Nat → Nat → R Nat} (bad : Nat → Prop) [DecidablePred bad] (hb : ∀ i p, i < n → body i p = .ok (if bad i then p + 1 else p)) :
    Tot (forUp 0 n body 0) fun p => p = 0 ↔ ∀ i < n, ¬ bad i := by
  refine forUp_tot (fun k p => p = 0 ↔ ∀ i < k, ¬ bad i) (Nat.zero_le _) (by simp) fun k p _ hk h => ?_
  refine ⟨_, hb k p hk, ?_⟩
  show (if bad k then p + 1 else p) = 0 ↔ ∀ i < k + 1, ¬ bad i
  by_cases hbad : bad k
  · rw [if_pos hbad]
    exact ⟨fun h => absurd h (by omega), fun h => absurd hbad (h k (by omega))⟩
  · rw [if_neg hbad, h]
    refine ⟨fun h i hi => ?_, fun h i hi => h i (by omega)⟩
    rcases Nat.lt_or_eq_of_le (Nat.le_of_lt_succ hi) with hh | hh
    · exact h i hh
    · subst hh; exact hbad

theorem isclosed_tot {m : Surf} (hs : SurfSized m) (he : ∀ i < m.triangles, ∀ k < 3, sedge m i k < m.edges) (jn : Nat → Nat) :
    Tot (isclosed jn m) fun b => b = true ↔ Closed m := by
  unfold isclosed
  have := hs.s
  refine Tot.bind (P := fun (v : Arr Nat) => v.n = m.edges ∧ ∀ f < m.edges, v.v f = 0) ?_ ?_
  · refine forUp_tot (fun k (v : Arr Nat) => v.n = m.edges ∧ ∀ f < k, v.v f = 0) (Nat.zero_le _) ⟨rfl, fun f hf => absurd hf (by omega)⟩ ?_
    rintro k v _ hk ⟨h1, h2⟩
    refine ⟨_, Arr.set_ok (by omega), h1, fun f hf => ?_⟩
    show (if f = k then 0 else v.v f) = 0
    split_ifs with hh
    · rfl
    · exact h2 f (by omega)
  · rintro v - ⟨v1, v2⟩
    refine Tot.bind (P := fun (v : Arr Nat) => v.n = m.edges ∧ ∀ f < m.edges, v.v f = occurs m f) ?_ ?_
    · refine Tot.mono (loop2 (fun i j (v : Arr Nat) => v.n = m.edges ∧ ∀ f < m.edges, v.v f = cnt (fun i k => if sedge m i k = f then 1 else 0) i j) ?_ ?_ ?_) ?_
      · exact ⟨v1, fun f hf => by rw [cnt_zero]; exact v2 f hf⟩
      · rintro i j w hi hj ⟨h1, h2⟩
        have hf := he i hi j hj
        have e : m.s.v (3 * i + j) = sedge m i j := rfl
        beta_reduce
        rw [Arr.get_ok (by omega), ok_bind, e, Arr.get_ok (by omega), ok_bind]
        refine ⟨_, Arr.set_ok (by omega), h1, fun f hff => ?_⟩
        show (if f = sedge m i j then w.v (sedge m i j) + 1 else w.v f) = _
        rw [cnt_step]
        by_cases hh : f = sedge m i j
        · rw [if_pos hh, if_pos hh.symm, ← hh, h2 f hff]
        · rw [if_neg hh, if_neg (fun x => hh x.symm), h2 f hff, add_zero]
      · rintro i w hi ⟨h1, h2⟩
        exact ⟨h1, fun f hf => by rw [cnt_next]; exact h2 f hf⟩
      · rintro w ⟨h1, h2⟩
        exact ⟨h1, fun f hf => by rw [h2 f hf, cnt_full]; rfl⟩
    · rintro w - ⟨w1, w2⟩
      refine Tot.bind (count_loop (fun i => w.v i ≠ 2) fun i p hi => by
        beta_reduce
        rw [Arr.get_ok (by omega), ok_bind]
        rfl) fun p _ hp => Tot.pure ?_
      rw [beq_iff_eq, hp]
      unfold Closed
      exact ⟨fun h f hf => by have := h f hf; rw [w2 f hf] at this; exact not_ne_iff.mp this, fun h f hf => by rw [w2 f hf]; exact not_ne_iff.mpr (h f hf)⟩

open Classical in
/-- difference of the numbers of passages, with the convention of the code: an edge with equal end points is passed forwards -/
noncomputable def signed (m : Surf) (f : Nat) (i k : Nat) : Int := if sedge m i k = f then (if Forward m i k then 1 else -1) else 0

theorem orientSlot_tot {m : Surf} (hm : SurfOk m) {i j : Nat} (hi : i < m.triangles) (hj : j < 3) {st : Arr Nat × Arr Int} (h1 : st.1.n = m.edges)
    (h2 : st.2.n = m.edges) : Tot (orientSlot m i j st) fun st' => st'.1.n = m.edges ∧ st'.2.n = m.edges ∧
      (∀ f, st'.1.v f = st.1.v f + if sedge m i j = f then 1 else 0) ∧ ∀ f, st'.2.v f = st.2.v f + signed m f i j := by
  have := hm.t
  have := hm.s
  have := hm.e
  have hf := hm.edges i hi j hj
  have m1 : (j + 1) % 3 < 3 := Nat.mod_lt _ (by norm_num)
  have m2 : (j + 2) % 3 < 3 := Nat.mod_lt _ (by norm_num)
  have e2 : m.s.v (3 * i + j) = sedge m i j := rfl
  have g0 : m.e.v (2 * sedge m i j) = sendp m (sedge m i j) 0 := rfl
  have g1 : m.e.v (2 * sedge m i j + 1) = sendp m (sedge m i j) 1 := rfl
  have c1 : m.t.v (3 * i + (j + 1) % 3) = corner m i ((j + 1) % 3) := rfl
  have c2 : m.t.v (3 * i + (j + 2) % 3) = corner m i ((j + 2) % 3) := rfl
  have hv : ∀ f, (if f = sedge m i j then st.1.v (sedge m i j) + 1 else st.1.v f) = st.1.v f + if sedge m i j = f then 1 else 0 := by
    intro f
    by_cases hh : f = sedge m i j
    · rw [if_pos hh, if_pos hh.symm, hh]
    · rw [if_neg hh, if_neg (fun x => hh x.symm), add_zero]
  unfold orientSlot
  rw [Arr.get_ok (by omega), ok_bind, e2, Arr.get_ok (by omega), ok_bind, Arr.set_ok (by omega), ok_bind, Arr.get_ok (by omega), ok_bind,
    Arr.get_ok (by omega), ok_bind, g0, c1]
  have hM := hm.match' i hi j hj
  by_cases ha : sendp m (sedge m i j) 0 = corner m i ((j + 1) % 3)
  · have hF : Forward m i j := by
      rcases hM with hM | hM
      · exact hM
      · exact ⟨ha, by rw [hM.2, ← ha, hM.1]⟩
    rw [if_pos ha, Arr.get_ok (by omega), ok_bind, Arr.get_ok (by omega), ok_bind, g1, c2, cassert_true (by simpa using hF.2), ok_bind,
      Arr.get_ok (by omega), ok_bind, Arr.set_ok (by omega), ok_bind]
    refine Tot.pure ⟨h1, h2, hv, fun f => ?_⟩
    show (if f = sedge m i j then st.2.v (sedge m i j) + 1 else st.2.v f) = _
    unfold signed
    by_cases hh : f = sedge m i j
    · rw [if_pos hh, if_pos hh.symm, if_pos hF, hh]
    · rw [if_neg hh, if_neg (fun x => hh x.symm), add_zero]
  · have hB : Backward m i j := by
      rcases hM with hM | hM
      · exact absurd hM.1 ha
      · exact hM
    rw [if_neg ha, Arr.get_ok (by omega), ok_bind, c2, cassert_true (by simpa using hB.1), ok_bind, Arr.get_ok (by omega), ok_bind, g1,
      cassert_true (by simpa using hB.2), ok_bind, Arr.get_ok (by omega), ok_bind, Arr.set_ok (by omega), ok_bind]
    refine Tot.pure ⟨h1, h2, hv, fun f => ?_⟩
    show (if f = sedge m i j then st.2.v (sedge m i j) - 1 else st.2.v f) = _
    unfold signed
    by_cases hh : f = sedge m i j
    · rw [if_pos hh, if_pos hh.symm, if_neg (fun hF => ha hF.1), hh]; rfl
    · rw [if_neg hh, if_neg (fun x => hh x.symm), add_zero]

theorem isoriented_tot {m : Surf} (hm : SurfOk m) (jn : Nat → Nat) (ji : Nat → Int) : Tot (isoriented jn ji m) fun b => b = true ↔
    ∀ f < m.edges, 1 < occurs m f → |∑ i ∈ Finset.range m.triangles, ∑ k ∈ Finset.range 3, signed m f i k| ≤ 1 := by
  unfold isoriented
  refine Tot.bind (P := fun (st : Arr Nat × Arr Int) => st.1.n = m.edges ∧ st.2.n = m.edges ∧ ∀ f < m.edges, st.1.v f = 0 ∧ st.2.v f = 0) ?_ ?_
  · refine forUp_tot (fun k (st : Arr Nat × Arr Int) => st.1.n = m.edges ∧ st.2.n = m.edges ∧ ∀ f < k, st.1.v f = 0 ∧ st.2.v f = 0) (Nat.zero_le _)
      ⟨rfl, rfl, fun f hf => absurd hf (by omega)⟩ ?_
    rintro k ⟨v, w⟩ _ hk ⟨h1, h2, h3⟩
    replace h1 : v.n = m.edges := h1
    replace h2 : w.n = m.edges := h2
    simp only
    rw [Arr.set_ok (by omega), ok_bind, Arr.set_ok (by omega), ok_bind]
    refine Tot.pure ⟨h1, h2, fun f hf => ?_⟩
    show (if f = k then 0 else v.v f) = 0 ∧ (if f = k then 0 else w.v f) = 0
    split_ifs with hh
    · exact ⟨rfl, rfl⟩
    · exact h3 f (by omega)
  · rintro st0 - ⟨v1, v2, v3⟩
    refine Tot.bind (P := fun (st : Arr Nat × Arr Int) => st.1.n = m.edges ∧ st.2.n = m.edges ∧ ∀ f < m.edges, st.1.v f = occurs m f ∧
      st.2.v f = ∑ i ∈ Finset.range m.triangles, ∑ k ∈ Finset.range 3, signed m f i k) ?_ ?_
    · refine Tot.mono (loop2 (fun i j (st : Arr Nat × Arr Int) => st.1.n = m.edges ∧ st.2.n = m.edges ∧ ∀ f < m.edges,
        st.1.v f = cnt (fun i k => if sedge m i k = f then 1 else 0) i j ∧ st.2.v f = cnt (signed m f) i j) ?_ ?_ ?_) ?_
      · exact ⟨v1, v2, fun f hf => by rw [cnt_zero, cnt_zero]; exact v3 f hf⟩
      · rintro i j st hi hj ⟨h1, h2, h3⟩
        refine Tot.mono (orientSlot_tot hm hi hj h1 h2) fun st' ⟨s1, s2, s3, s4⟩ => ⟨s1, s2, fun f hf => ?_⟩
        rw [s3, s4, cnt_step, cnt_step, (h3 f hf).1, (h3 f hf).2]
        exact ⟨rfl, rfl⟩
      · rintro i st hi ⟨h1, h2, h3⟩
        exact ⟨h1, h2, fun f hf => by rw [cnt_next, cnt_next]; exact h3 f hf⟩
      · rintro w ⟨h1, h2, h3⟩
        exact ⟨h1, h2, fun f hf => by rw [(h3 f hf).1, (h3 f hf).2, cnt_full, cnt_full]; exact ⟨rfl, rfl⟩⟩
    · rintro st - ⟨w1, w2, w3⟩
      refine Tot.bind (count_loop (fun i => 1 < st.1.v i ∧ (st.2.v i < -1 ∨ st.2.v i > 1)) fun i p hi => by
        beta_reduce
        rw [Arr.get_ok (by omega), ok_bind]
        by_cases hc : st.1.v i > 1
        · rw [if_pos hc, Arr.get_ok (by omega), ok_bind]
          by_cases hd : st.2.v i < -1 ∨ st.2.v i > 1
          · rw [if_pos hd, if_pos ⟨hc, hd⟩]; rfl
          · rw [if_neg hd, if_neg (fun x => hd x.2)]; rfl
        · rw [if_neg hc, if_neg (fun x => hc x.1)]; rfl) fun p _ hp => Tot.pure ?_
      rw [beq_iff_eq, hp]
      constructor
      · intro h f hf ho
        have := h f hf
        rw [(w3 f hf).1, (w3 f hf).2] at this
        rw [abs_le]
        have h2 := not_and.mp this ho
        omega
      · rintro h f hf ⟨ho, hd⟩
        rw [(w3 f hf).1] at ho
        rw [(w3 f hf).2] at hd
        have := abs_le.mp (h f hf ho)
        omega

theorem signed_sum {m : Surf} (hm : SurfOk m) (hp : Proper m) (f : Nat) :
    ∑ i ∈ Finset.range m.triangles, ∑ k ∈ Finset.range 3, signed m f i k = (forwards m f : Int) - backwards m f ∧
    occurs m f = forwards m f + backwards m f := by
  unfold forwards backwards occurs
  push_cast
  rw [← Finset.sum_sub_distrib, ← Finset.sum_add_distrib]
  have hnot : ∀ i < m.triangles, ∀ k < 3, Forward m i k → ¬ Backward m i k := by
    rintro i hi k hk h h'
    have hc : corner m i ((k + 1) % 3) = corner m i ((k + 2) % 3) := h.1.symm.trans h'.1
    obtain ⟨p1, p2, p3⟩ := hp i hi
    obtain rfl | rfl | rfl : k = 0 ∨ k = 1 ∨ k = 2 := by omega
    · exact p2 hc
    · exact p3 hc
    · exact p1 hc
  constructor
  · apply Finset.sum_congr rfl
    intro i hi
    rw [← Finset.sum_sub_distrib]
    apply Finset.sum_congr rfl
    intro k hk
    have hi := Finset.mem_range.mp hi
    have hk := Finset.mem_range.mp hk
    unfold signed
    have hn := hnot i hi k hk
    rcases hm.match' i hi k hk with h | h
    · have := hn h
      simp only [h, this, if_true, and_true, and_false, if_false]
      split_ifs <;> norm_num
    · have : ¬ Forward m i k := fun x => hn x h
      simp only [h, this, if_false, and_true, and_false]
      split_ifs <;> norm_num
  · apply Finset.sum_congr rfl
    intro i hi
    rw [← Finset.sum_add_distrib]
    apply Finset.sum_congr rfl
    intro k hk
    have hi := Finset.mem_range.mp hi
    have hk := Finset.mem_range.mp hk
    have hn := hnot i hi k hk
    rcases hm.match' i hi k hk with h | h
    · have := hn h
      simp only [h, this, and_true, and_false, if_false, add_zero]
    · have : ¬ Forward m i k := fun x => hn x h
      simp only [h, this, and_true, and_false, if_false, zero_add]

end H2.Surf
