import Verif.Proof.BlockIter

/-! Enumeration, depth and sparsity constant of block trees. -/

set_option linter.unusedSectionVars false

namespace H2
open Spec Block
variable {K : Type}

/-- write a list into an array -/
def putList {α : Type _} (l : List α) (k : Nat) (a : Nat → Option α) : Nat → Option α :=
  fun i => if k ≤ i ∧ i < k + l.length then l[i - k]? else a i

theorem putList_nil {α : Type _} (k : Nat) (a : Nat → Option α) : putList [] k a = a := by
  funext i; unfold putList; rw [if_neg (by simp)]

theorem putList_append {α : Type _} (l l' : List α) (k : Nat) (a : Nat → Option α) :
    putList l' (k + l.length) (putList l k a) = putList (l ++ l') k a := by
  funext i
  unfold putList
  simp only [List.length_append]
  by_cases h1 : k + l.length ≤ i ∧ i < k + l.length + l'.length
  · rw [if_pos h1, if_pos (by omega), List.getElem?_append_right (by omega)]
    congr 1; omega
  · rw [if_neg h1]
    by_cases h2 : k ≤ i ∧ i < k + l.length
    · rw [if_pos h2, if_pos (by omega), List.getElem?_append_left (by omega)]
    · rw [if_neg h2, if_neg (by omega)]

theorem putList_single {α : Type _} (x : α) (k : Nat) (a : Nat → Option α) :
    (fun i => if i = k then some x else a i) = putList [x] k a := by
  funext i
  unfold putList
  by_cases h : i = k
  · subst h; simp
  · rw [if_neg h, if_neg (by simp; omega)]

theorem enumerate_tot (cap : Nat) (b : Block K) : BDescExact b → ∀ k bn, k + (bnodes b).length ≤ cap →
    b.enumerate cap k bn = .ok (putList (bnodes b) k bn) := by
  induction b with
  | mk rc cc a d m n son ih =>
    intro hd k bn hcap
    obtain ⟨hd1, hd2⟩ := bdesc_son hd
    rw [bnodes_cols, List.length_cons] at hcap
    rw [Block.enumerate, if_neg (by omega)]
    rw [putList_single]
    have H : Tot (do
        let st ← foldFinM n (fun j (st : (Nat → Option (Block K)) × Nat) =>
            foldFinM m (fun i (st : (Nat → Option (Block K)) × Nat) => do
              let bn ← (son i j).enumerate cap st.2 st.1
              pure (bn, st.2 + (son i j).desc)) st)
          (putList [mk rc cc a d m n son] k bn, k + 1)
        cassert (decide (st.2 = k + d))
        pure st.1) (fun x => x = putList (bnodes (mk rc cc a d m n son)) k bn) := by
      have hlen : ∀ j : Fin n, ∀ i : Fin m, (colsBefore son j ++ rowsBefore son j (i.1 + 1)).length ≤
          (colsBefore son n).length := by
        intro j i
        have h1 : (rowsBefore son j (i.1 + 1)).length ≤ (rowsBefore son j m).length := by
          have e : (List.finRange m).take m = (List.finRange m).take (i.1 + 1) ++ ((List.finRange m).take m).drop (i.1 + 1) := by
            have := (List.take_append_drop (i.1 + 1) ((List.finRange m).take m)).symm
            rwa [List.take_take, Nat.min_eq_left (by have := i.2; omega)] at this
          unfold rowsBefore
          rw [e, List.flatMap_append, List.length_append]; omega
        have h2 : (colsBefore son (j.1 + 1)).length ≤ (colsBefore son n).length := by
          have e : (List.finRange n).take n = (List.finRange n).take (j.1 + 1) ++ ((List.finRange n).take n).drop (j.1 + 1) := by
            have := (List.take_append_drop (j.1 + 1) ((List.finRange n).take n)).symm
            rwa [List.take_take, Nat.min_eq_left (by have := j.2; omega)] at this
          unfold colsBefore
          rw [e, List.flatMap_append, List.length_append]; omega
        rw [colsBefore_succ, List.length_append] at h2
        rw [List.length_append]; omega
      refine Tot.bind (P := fun (st : (Nat → Option (Block K)) × Nat) =>
        st.1 = putList (mk rc cc a d m n son :: colsBefore son n) k bn ∧ st.2 = k + 1 + (colsBefore son n).length) ?_ ?_
      · refine foldFinM_tot (P := fun j (st : (Nat → Option (Block K)) × Nat) =>
          st.1 = putList (mk rc cc a d m n son :: colsBefore son j) k bn ∧ st.2 = k + 1 + (colsBefore son j).length) ?_ ?_
        · simp [colsBefore_zero]
        · rintro j st ⟨h1, h2⟩
          rw [colsBefore_succ]
          refine foldFinM_tot (P := fun i (st : (Nat → Option (Block K)) × Nat) =>
            st.1 = putList (mk rc cc a d m n son :: (colsBefore son j ++ rowsBefore son j i)) k bn ∧
            st.2 = k + 1 + (colsBefore son j ++ rowsBefore son j i).length) ?_ ?_
          · simp [rowsBefore_zero, h1, h2]
          · rintro i ⟨bn', k'⟩ ⟨h3, h4⟩
            simp only at h3 h4
            have hl := hlen j i
            rw [rowsBefore_succ, ← List.append_assoc, List.length_append] at hl
            have hh := ih i j (hd2 i j) k' bn' (by omega)
            refine Tot.bind ⟨_, hh, rfl⟩ ?_
            rintro bn'' _ rfl
            refine Tot.pure ⟨?_, ?_⟩
            · simp only
              have := putList_append (mk rc cc a d m n son :: (colsBefore son j ++ rowsBefore son j i))
                (bnodes (son i j)) k bn
              rw [List.cons_append, List.append_assoc, ← rowsBefore_succ] at this
              rw [h3, ← this]
              congr 1
              rw [h4, List.length_cons]; omega
            · simp only [h4, rowsBefore_succ, List.length_append, hd2 i j _ (mem_bnodes_self _)]
              omega
      · rintro ⟨bn', k'⟩ _ ⟨h1, h2⟩
        simp only at h1 h2
        refine Tot.cassert (by simp [h2, hd1]; omega) (Tot.pure ?_)
        rw [bnodes_cols]
        exact h1
    obtain ⟨x, hx, rfl⟩ := H
    exact hx

/-! levels -/

/-- levels of the first `j` columns of sons -/
def lcolsBefore {m n : Nat} (son : Fin m → Fin n → Block K) (p j : Nat) : List Nat :=
  ((List.finRange n).take j).flatMap fun j => (List.finRange m).flatMap fun i => blevels p (son i j)
def lrowsBefore {m n : Nat} (son : Fin m → Fin n → Block K) (p : Nat) (j : Fin n) (i : Nat) : List Nat :=
  ((List.finRange m).take i).flatMap fun i => blevels p (son i j)

theorem lrowsBefore_succ {m n : Nat} (son : Fin m → Fin n → Block K) (p : Nat) (j : Fin n) (i : Fin m) :
    lrowsBefore son p j (i.1 + 1) = lrowsBefore son p j i.1 ++ blevels p (son i j) := by
  unfold lrowsBefore; rw [take_finRange_succ, List.flatMap_append]; simp
theorem lcolsBefore_succ {m n : Nat} (son : Fin m → Fin n → Block K) (p : Nat) (j : Fin n) :
    lcolsBefore son p (j.1 + 1) = lcolsBefore son p j.1 ++ lrowsBefore son p j m := by
  unfold lcolsBefore lrowsBefore
  rw [take_finRange_succ, List.flatMap_append, List.take_of_length_le (i := m) (l := List.finRange m) (by simp)]; simp
theorem blevels_cols {rc cc : CRef K} {a : Bool} {d m n : Nat} (son : Fin m → Fin n → Block K) (p : Nat) :
    blevels p (.mk rc cc a d m n son) = p :: lcolsBefore son (p + 1) n := by
  unfold lcolsBefore; rw [blevels, List.take_of_length_le (by simp)]

theorem blevels_length (b : Block K) : ∀ p, (blevels p b).length = (bnodes b).length := by
  induction b with
  | mk rc cc a d m n son ih =>
    intro p
    rw [blevels, bnodes, List.length_cons, List.length_cons]
    simp only [List.length_flatMap, ih]

theorem enumerateLevel_tot (cap : Nat) (b : Block K) : BDescExact b → ∀ k bln p, k + (bnodes b).length ≤ cap →
    b.enumerateLevel cap k bln p = .ok (putList (blevels (p + 1) b) k bln) := by
  induction b with
  | mk rc cc a d m n son ih =>
    intro hd k bn p hcap
    obtain ⟨hd1, hd2⟩ := bdesc_son hd
    have hl0 : ∀ j, (lcolsBefore son (p + 2) j).length = (colsBefore son j).length := by
      intro j; unfold lcolsBefore colsBefore; simp only [List.length_flatMap, blevels_length]
    have hl1 : ∀ j i, (lrowsBefore son (p + 2) j i).length = (rowsBefore son j i).length := by
      intro j i; unfold lrowsBefore rowsBefore; simp only [List.length_flatMap, blevels_length]
    rw [bnodes_cols, List.length_cons] at hcap
    rw [Block.enumerateLevel, if_neg (by omega)]
    rw [putList_single]
    have H : Tot (do
        let st ← foldFinM n (fun j (st : (Nat → Option Nat) × Nat) =>
            foldFinM m (fun i (st : (Nat → Option Nat) × Nat) => do
              let bn ← (son i j).enumerateLevel cap st.2 st.1 (p + 1)
              pure (bn, st.2 + (son i j).desc)) st)
          (putList [p + 1] k bn, k + 1)
        cassert (decide (st.2 = k + d))
        pure st.1) (fun x => x = putList (blevels (p + 1) (mk rc cc a d m n son)) k bn) := by
      have hlen : ∀ j : Fin n, ∀ i : Fin m, (colsBefore son j ++ rowsBefore son j (i.1 + 1)).length ≤
          (colsBefore son n).length := by
        intro j i
        have h1 : (rowsBefore son j (i.1 + 1)).length ≤ (rowsBefore son j m).length := by
          have e : (List.finRange m).take m = (List.finRange m).take (i.1 + 1) ++ ((List.finRange m).take m).drop (i.1 + 1) := by
            have := (List.take_append_drop (i.1 + 1) ((List.finRange m).take m)).symm
            rwa [List.take_take, Nat.min_eq_left (by have := i.2; omega)] at this
          unfold rowsBefore
          rw [e, List.flatMap_append, List.length_append]; omega
        have h2 : (colsBefore son (j.1 + 1)).length ≤ (colsBefore son n).length := by
          have e : (List.finRange n).take n = (List.finRange n).take (j.1 + 1) ++ ((List.finRange n).take n).drop (j.1 + 1) := by
            have := (List.take_append_drop (j.1 + 1) ((List.finRange n).take n)).symm
            rwa [List.take_take, Nat.min_eq_left (by have := j.2; omega)] at this
          unfold colsBefore
          rw [e, List.flatMap_append, List.length_append]; omega
        rw [colsBefore_succ, List.length_append] at h2
        rw [List.length_append]; omega
      refine Tot.bind (P := fun (st : (Nat → Option Nat) × Nat) =>
        st.1 = putList ((p + 1) :: lcolsBefore son (p + 2) n) k bn ∧ st.2 = k + 1 + (colsBefore son n).length) ?_ ?_
      · refine foldFinM_tot (P := fun j (st : (Nat → Option Nat) × Nat) =>
          st.1 = putList ((p + 1) :: lcolsBefore son (p + 2) j) k bn ∧ st.2 = k + 1 + (colsBefore son j).length) ?_ ?_
        · simp [colsBefore_zero, lcolsBefore]
        · rintro j st ⟨h1, h2⟩
          rw [colsBefore_succ, lcolsBefore_succ]
          refine foldFinM_tot (P := fun i (st : (Nat → Option Nat) × Nat) =>
            st.1 = putList ((p + 1) :: (lcolsBefore son (p + 2) j ++ lrowsBefore son (p + 2) j i)) k bn ∧
            st.2 = k + 1 + (colsBefore son j ++ rowsBefore son j i).length) ?_ ?_
          · simp [rowsBefore_zero, lrowsBefore, h1, h2]
          · rintro i ⟨bn', k'⟩ ⟨h3, h4⟩
            simp only at h3 h4
            have hl := hlen j i
            rw [rowsBefore_succ, ← List.append_assoc, List.length_append] at hl
            have hh := ih i j (hd2 i j) k' bn' (p + 1) (by omega)
            refine Tot.bind ⟨_, hh, rfl⟩ ?_
            rintro bn'' _ rfl
            refine Tot.pure ⟨?_, ?_⟩
            · simp only
              have := putList_append ((p + 1) :: (lcolsBefore son (p + 2) j ++ lrowsBefore son (p + 2) j i))
                (blevels (p + 2) (son i j)) k bn
              rw [List.cons_append, List.append_assoc, ← lrowsBefore_succ] at this
              rw [h3, ← this]
              congr 1
              rw [h4, List.length_cons, List.length_append, List.length_append, hl0, hl1]; omega
            · simp only [h4, rowsBefore_succ, List.length_append, hd2 i j _ (mem_bnodes_self _)]
              omega
      · rintro ⟨bn', k'⟩ _ ⟨h1, h2⟩
        simp only at h1 h2
        refine Tot.cassert (by simp [h2, hd1]; omega) (Tot.pure ?_)
        rw [blevels_cols]
        exact h1
    obtain ⟨x, hx, rfl⟩ := H
    exact hx

theorem foldFin_max {n : Nat} (f : Fin n → Nat → Nat) (g : Fin n → Nat → Prop)
    (h1 : ∀ i p, p ≤ f i p ∧ (∀ x, g i x → x ≤ f i p) ∧ (f i p = p ∨ g i (f i p))) (s : Nat) :
    s ≤ foldFin n f s ∧ (∀ i x, g i x → x ≤ foldFin n f s) ∧ (foldFin n f s = s ∨ ∃ i, g i (foldFin n f s)) := by
  induction n with
  | zero => exact ⟨le_rfl, fun i => i.elim0, .inl rfl⟩
  | succ n ih =>
    rw [foldFin_succ]
    obtain ⟨a1, a2, a3⟩ := ih (fun i => f i.castSucc) (fun i => g i.castSucc) (fun i => h1 i.castSucc)
    obtain ⟨b1, b2, b3⟩ := h1 (Fin.last n) (foldFin n (fun i => f i.castSucc) s)
    refine ⟨a1.trans b1, ?_, ?_⟩
    · intro i
      refine Fin.lastCases (fun x hx => b2 x hx) (fun i x hx => (a2 i x hx).trans b1) i
    · rcases b3 with b3 | b3
      · rw [b3]
        rcases a3 with a3 | ⟨i, a3⟩
        · exact .inl a3
        · exact .inr ⟨_, a3⟩
      · exact .inr ⟨_, b3⟩

theorem blevels_shift (b : Block K) : ∀ p q, blevels (p + q) b = (blevels p b).map (· + q) := by
  induction b with
  | mk rc cc a d m n son ih =>
    intro p q
    rw [blevels, blevels, List.map_cons, List.map_flatMap]
    congr 1
    congr 1
    funext j
    rw [List.map_flatMap]
    congr 1
    funext i
    rw [show p + q + 1 = p + 1 + q by omega, ih i j]

/-- the depth is the largest level -/
theorem getdepth_max (b : Block K) : (∀ x ∈ blevels 0 b, x ≤ b.getdepth) ∧ b.getdepth ∈ blevels 0 b := by
  induction b with
  | mk rc cc a d m n son ih =>
    rw [Block.getdepth]
    split
    · rename_i h
      have H := foldFin_max (fun j p => foldFin m (fun i p => max p (son i j).getdepth) p)
        (fun (j : Fin n) x => ∃ i, x = (son i j).getdepth) (fun j p => by
          have := foldFin_max (fun i p => max p (son i j).getdepth)
            (fun i x => x = (son i j).getdepth) (fun i p => ⟨le_max_left _ _, fun x hx => hx ▸ le_max_right _ _,
              by rcases le_total p (son i j).getdepth with h | h
                 · exact .inr (max_eq_right h)
                 · exact .inl (max_eq_left h)⟩) p
          exact ⟨this.1, fun x ⟨i, hx⟩ => this.2.1 i x hx, this.2.2⟩) 0
      obtain ⟨_, h2, h3⟩ := H
      rw [blevels]
      constructor
      · intro x hx
        rcases List.mem_cons.1 hx with rfl | hx
        · omega
        · simp only [List.mem_flatMap, List.mem_finRange, true_and] at hx
          obtain ⟨j, i, hx⟩ := hx
          rw [blevels_shift, List.mem_map] at hx
          obtain ⟨y, hy, rfl⟩ := hx
          have := (ih i j).1 y hy
          have := h2 j _ ⟨i, rfl⟩
          omega
      · have hne : ∃ i j, foldFin n (fun j p => foldFin m (fun i p => max p (son i j).getdepth) p) 0 =
            (son i j).getdepth := by
          rcases h3 with h3 | ⟨j, i, h3⟩
          · refine ⟨⟨0, h.1⟩, ⟨0, h.2⟩, ?_⟩
            have := h2 ⟨0, h.2⟩ _ ⟨⟨0, h.1⟩, rfl⟩
            omega
          · exact ⟨i, j, h3⟩
        obtain ⟨i, j, e⟩ := hne
        rw [e]
        refine List.mem_cons_of_mem _ ?_
        simp only [List.mem_flatMap, List.mem_finRange, true_and]
        refine ⟨j, i, ?_⟩
        rw [blevels_shift, List.mem_map]
        exact ⟨_, (ih i j).2, rfl⟩
    · rename_i h
      rw [blevels]
      have : ((List.finRange n).flatMap fun j => (List.finRange m).flatMap fun i => blevels (0 + 1) (son i j)) = [] := by
        rw [List.flatMap_eq_nil_iff]
        intro j _
        rw [List.flatMap_eq_nil_iff]
        intro i _
        exact absurd ⟨lt_of_le_of_lt (Nat.zero_le _) i.2, lt_of_le_of_lt (Nat.zero_le _) j.2⟩ h
      rw [this]
      simp

/-! sparsity -/

theorem cspCount_ok {nr nc : Nat} : ∀ (ev : List (BEvent K)) (s : (Nat → Nat) × (Nat → Nat)),
    (∀ e ∈ pres ev, e.rname < nr ∧ e.cname < nc) →
    cspCount nr nc ev s = .ok (fun i => s.1 i + (pres ev).countP (fun e => decide (e.rname = i)),
      fun i => s.2 i + (pres ev).countP (fun e => decide (e.cname = i)))
  | [], s, _ => by simp [cspCount, pres]
  | .post b x y z :: ev, s, h => by rw [cspCount]; exact cspCount_ok ev s h
  | .pre b x y z :: ev, s, h => by
    have hp : pres (.pre b x y z :: ev) = ⟨b, x, y, z⟩ :: pres ev := rfl
    rw [hp] at h ⊢
    rw [cspCount, if_pos (h _ List.mem_cons_self), cspCount_ok ev _ (fun e he => h e (List.mem_cons_of_mem _ he))]
    congr 2
    · funext i
      rw [List.countP_cons]
      by_cases hi : i = y
      · subst hi; simp; omega
      · have : ¬ y = i := fun h => hi h.symm
        simp [hi, this]
    · funext i
      rw [List.countP_cons]
      by_cases hi : i = z
      · subst hi; simp; omega
      · have : ¬ z = i := fun h => hi h.symm
        simp [hi, this]

theorem forT_max (f : Nat → Nat) (n s : Nat) :
    s ≤ forT 0 n (fun i c => if c < f i then f i else c) s ∧
    (∀ i < n, f i ≤ forT 0 n (fun i c => if c < f i then f i else c) s) ∧
    (forT 0 n (fun i c => if c < f i then f i else c) s = s ∨
      ∃ i < n, forT 0 n (fun i c => if c < f i then f i else c) s = f i) := by
  induction n with
  | zero => exact ⟨le_rfl, fun i hi => absurd hi (by omega), .inl rfl⟩
  | succ n ih =>
    rw [forT_succ (Nat.zero_le n)]
    obtain ⟨a1, a2, a3⟩ := ih
    generalize hc : forT 0 n (fun i c => if c < f i then f i else c) s = c at *
    split
    · rename_i h
      refine ⟨by omega, fun i hi => ?_, .inr ⟨n, by omega, rfl⟩⟩
      rcases Nat.lt_succ_iff_lt_or_eq.1 hi with h' | rfl
      · have := a2 i h'; omega
      · exact le_rfl
    · rename_i h
      refine ⟨a1, fun i hi => ?_, ?_⟩
      · rcases Nat.lt_succ_iff_lt_or_eq.1 hi with h' | rfl
        · exact a2 i h'
        · omega
      · rcases a3 with a3 | ⟨i, h1, h2⟩
        · exact .inl a3
        · exact .inr ⟨i, by omega, h2⟩

theorem refIndex_lt {r u : CRef K} (h : Under r u) (hd : DescExact r.cl) : refIndex r u < r.cl.desc := by
  obtain ⟨q, h1, h2⟩ := under_path h
  have h3 := (cpaths_son_idx q r.cl u.cl h2 hd).1
  unfold refIndex
  rw [show u.path.drop r.path.length = q by simp [h1], hd _ (mem_nodes_self _), ← cpaths_length]
  exact List.idxOf_lt_length_iff.2 h3

theorem countP_expected (b : Block K) (P : BEntry K → Bool) (Q : Block K → Bool)
    (h : ∀ s k, P ⟨s, k, 0 + refIndex b.rc s.rc, 0 + refIndex b.cc s.cc⟩ = Q s) :
    (expectedEntries b 0 0 0).countP P = (bnodes b).countP Q := by
  unfold expectedEntries
  rw [List.countP_map]
  have : (P ∘ fun (p : Block K × Nat) => (⟨p.1, p.2, 0 + refIndex b.rc p.1.rc, 0 + refIndex b.cc p.1.cc⟩ : BEntry K)) =
      Q ∘ Prod.fst := by
    funext p; exact h p.1 p.2
  rw [this, ← List.countP_map, List.zipIdx_map_fst]

theorem computeCsp_ok {b : Block K} (h : BlockOK b) : Tot b.computeCsp fun c =>
    (∀ i < b.rc.cl.desc, rowCount b i ≤ c) ∧ (∀ i < b.cc.cl.desc, colCount b i ≤ c) ∧
    ((∃ i < b.rc.cl.desc, rowCount b i = c) ∨ ∃ i < b.cc.cl.desc, colCount b i = c) := by
  obtain ⟨ev, h1, h2, _⟩ := iterate_expected h 0 0 0
  unfold Block.computeCsp
  refine Tot.bind (P := fun ev => pres ev = expectedEntries b 0 0 0) ⟨ev, h1, h2⟩ ?_
  intro ev' _ h2
  have hb : ∀ e ∈ pres ev', e.rname < b.rc.cl.desc ∧ e.cname < b.cc.cl.desc := by
    intro e he
    rw [h2] at he
    obtain ⟨⟨s, k⟩, hp, rfl⟩ := List.mem_map.1 he
    obtain ⟨_, _, e⟩ := List.mem_zipIdx hp
    have hs : s ∈ bnodes b := by rw [e]; exact List.getElem_mem _
    obtain ⟨u1, u2⟩ := bnodes_under h.tree s hs
    have r1 := refIndex_lt u1 h.rdesc
    have r2 := refIndex_lt u2 h.cdesc
    exact ⟨by simpa using r1, by simpa using r2⟩
  rw [cspCount_ok ev' _ hb, ok_bind]
  have er : ∀ i, (pres ev').countP (fun e => decide (e.rname = i)) = rowCount b i := by
    intro i; rw [h2]; exact countP_expected b _ _ (fun s k => by simp)
  have ec : ∀ i, (pres ev').countP (fun e => decide (e.cname = i)) = colCount b i := by
    intro i; rw [h2]; exact countP_expected b _ _ (fun s k => by simp)
  simp only [Nat.zero_add, er, ec]
  refine Tot.pure ?_
  obtain ⟨a1, a2, a3⟩ := forT_max (rowCount b) b.rc.cl.desc 0
  obtain ⟨c1, c2, c3⟩ := forT_max (colCount b) b.cc.cl.desc
    (forT 0 b.rc.cl.desc (fun i c => if c < rowCount b i then rowCount b i else c) 0)
  refine ⟨fun i hi => (a2 i hi).trans c1, c2, ?_⟩
  rcases c3 with c3 | ⟨i, hi, c3⟩
  · left
    rw [c3]
    rcases a3 with a3 | ⟨i, hi, a3⟩
    · have hpos : 0 < b.rc.cl.desc := by
        have := refIndex_lt (Under.refl (r := b.rc)) h.rdesc; omega
      refine ⟨0, hpos, ?_⟩
      have := a2 0 hpos
      omega
    · exact ⟨i, hi, a3.symm⟩
  · exact .inr ⟨i, hi, c3.symm⟩

end H2
