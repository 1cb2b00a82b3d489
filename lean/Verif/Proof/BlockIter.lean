import Verif.Proof.ListTrace
import Verif.Proof.BlockLower
import Mathlib.Tactic.Abel

/-! The block iterators visit every block once, with the right numbers. -/

set_option linter.unusedSectionVars false

namespace H2
open Spec Block
variable {K : Type _}

/-- the entry for block `s` with number `k` -/
def ent (fr fc : CRef K → Nat) (p : Block K × Nat) : BEntry K := ⟨p.1, p.2, fr p.1.rc, fc p.1.cc⟩

/-- entries for a list of blocks numbered from `k` -/
def ents (fr fc : CRef K → Nat) (l : List (Block K)) (k : Nat) : List (BEntry K) := (l.zipIdx k).map (ent fr fc)

theorem ents_nil (fr fc : CRef K → Nat) (k : Nat) : ents fr fc [] k = [] := rfl
theorem ents_cons (fr fc : CRef K → Nat) (b : Block K) (l : List (Block K)) (k : Nat) :
    ents fr fc (b :: l) k = ⟨b, k, fr b.rc, fc b.cc⟩ :: ents fr fc l (k + 1) := rfl
theorem ents_append (fr fc : CRef K → Nat) (l l' : List (Block K)) (k : Nat) :
    ents fr fc (l ++ l') k = ents fr fc l k ++ ents fr fc l' (k + l.length) := by
  unfold ents
  rw [List.zipIdx_append, List.map_append]

theorem take_finRange_succ {n : Nat} (j : Fin n) :
    (List.finRange n).take (j.1 + 1) = (List.finRange n).take j.1 ++ [j] := by
  rw [List.take_succ_eq_append_getElem (by simp)]
  simp

/-- blocks of the first `j` columns of sons -/
def colsBefore {m n : Nat} (son : Fin m → Fin n → Block K) (j : Nat) : List (Block K) :=
  ((List.finRange n).take j).flatMap fun j => (List.finRange m).flatMap fun i => bnodes (son i j)

/-- blocks of the first `i` sons of column `j` -/
def rowsBefore {m n : Nat} (son : Fin m → Fin n → Block K) (j : Fin n) (i : Nat) : List (Block K) :=
  ((List.finRange m).take i).flatMap fun i => bnodes (son i j)

theorem colsBefore_zero {m n : Nat} (son : Fin m → Fin n → Block K) : colsBefore son 0 = [] := by simp [colsBefore]
theorem rowsBefore_zero {m n : Nat} (son : Fin m → Fin n → Block K) (j : Fin n) : rowsBefore son j 0 = [] := by
  simp [rowsBefore]
theorem rowsBefore_succ {m n : Nat} (son : Fin m → Fin n → Block K) (j : Fin n) (i : Fin m) :
    rowsBefore son j (i.1 + 1) = rowsBefore son j i.1 ++ bnodes (son i j) := by
  unfold rowsBefore; rw [take_finRange_succ, List.flatMap_append]; simp
theorem colsBefore_succ {m n : Nat} (son : Fin m → Fin n → Block K) (j : Fin n) :
    colsBefore son (j.1 + 1) = colsBefore son j.1 ++ rowsBefore son j m := by
  unfold colsBefore rowsBefore
  rw [take_finRange_succ, List.flatMap_append, List.take_of_length_le (i := m) (l := List.finRange m) (by simp)]; simp
theorem bnodes_cols {rc cc : CRef K} {a : Bool} {d m n : Nat} (son : Fin m → Fin n → Block K) :
    bnodes (.mk rc cc a d m n son) = .mk rc cc a d m n son :: colsBefore son n := by
  unfold colsBefore; rw [bnodes, List.take_of_length_le (by simp)]

theorem bdesc_son {rc cc : CRef K} {a : Bool} {d m n : Nat} {son : Fin m → Fin n → Block K}
    (h : BDescExact (.mk rc cc a d m n son)) : d = (colsBefore son n).length + 1 ∧ ∀ i j, BDescExact (son i j) := by
  unfold BDescExact at h
  rw [forall_bnodes_mk, bnodes_cols] at h
  exact ⟨h.1, h.2⟩

/-- `iterate_block` -/
theorem iterate_tot (fr fc : CRef K → Nat) (b : Block K) : ∀ (rc cc : CRef K), BlockTree rc cc b → BDescExact b →
    DescExact rc.cl → DescExact cc.cl → IsNaming fr rc → IsNaming fc cc → ∀ k,
    Tot (b.iterate k (fr rc) (fc cc)) fun ev => pres ev = ents fr fc (bnodes b) k ∧
      (posts ev).Perm (ents fr fc (bnodes b) k) := by
  induction b with
  | mk rc' cc' a d m n son ih =>
    intro rc cc hb hd hdr hdc hnr hnc k
    obtain ⟨rfl, rfl, hsplit⟩ := blockTree_split hb
    obtain ⟨hd1, hd2⟩ := bdesc_son hd
    rw [Block.iterate]
    rw [bnodes_cols, ents_cons]
    have fin : ∀ ev : List (BEvent K), (pres ev = ents fr fc (colsBefore son n) (k + 1) ∧
        (posts ev).Perm (ents fr fc (colsBefore son n) (k + 1))) →
        pres (.pre (mk rc' cc' a d m n son) k (fr rc') (fc cc') :: ev ++
          [.post (mk rc' cc' a d m n son) k (fr rc') (fc cc')]) = ⟨mk rc' cc' a d m n son, k, fr rc', fc cc'⟩ ::
          ents fr fc (colsBefore son n) (k + 1) ∧
        (posts (.pre (mk rc' cc' a d m n son) k (fr rc') (fc cc') :: ev ++
          [.post (mk rc' cc' a d m n son) k (fr rc') (fc cc')])).Perm (⟨mk rc' cc' a d m n son, k, fr rc', fc cc'⟩ ::
          ents fr fc (colsBefore son n) (k + 1)) := by
      rintro ev ⟨h1, h2⟩
      constructor
      · rw [List.cons_append]
        show _ :: pres (ev ++ _) = _
        rw [pres_append, h1]; simp [pres]
      · rw [List.cons_append]
        show (posts (ev ++ [.post _ _ _ _])).Perm _
        rw [posts_append]
        refine (List.perm_append_comm).trans ?_
        exact List.Perm.cons _ h2
    rcases hsplit with ⟨rfl, rfl⟩ | ⟨rr, cr, wr, wc, sr, sc, _, hs⟩
    · rw [dif_neg (by simp)]
      exact Tot.pure (fin [] ⟨by simp [colsBefore, ents_nil, pres], by simp [colsBefore, ents_nil, posts]⟩)
    · rw [dif_pos ⟨sr.pos, sc.pos⟩]
      have er : ∀ i j, (son i j).rc = rr i := fun i j => (blockTree_refs (hs i j)).1
      have ec : ∀ i j, (son i j).cc = cr j := fun i j => (blockTree_refs (hs i j)).2
      simp only [er, ec, sr.same, sc.same]
      rw [← Split.at_zero fr rc' wr, ← Split.at_zero fc cc' wc]
      refine Tot.bind (P := fun (st : List (BEvent K) × Nat × Nat) => (pres st.1 = ents fr fc (colsBefore son n) (k + 1) ∧
          (posts st.1).Perm (ents fr fc (colsBefore son n) (k + 1))) ∧
          st.2.1 = k + 1 + (colsBefore son n).length ∧ st.2.2 = Split.at fc cc' wc n) ?_ ?_
      · refine foldFinM_tot (P := fun j (st : List (BEvent K) × Nat × Nat) => (pres st.1 = ents fr fc (colsBefore son j) (k + 1) ∧
          (posts st.1).Perm (ents fr fc (colsBefore son j) (k + 1))) ∧
          st.2.1 = k + 1 + (colsBefore son j).length ∧ st.2.2 = Split.at fc cc' wc j) ?_ ?_
        · simp [colsBefore_zero, ents_nil, pres, posts]
        · rintro j ⟨ev, bn, cn⟩ ⟨⟨h1, h1'⟩, h2, h3⟩
          simp only at h1 h1' h2 h3
          refine Tot.bind (P := fun (st : List (BEvent K) × Nat × Nat) => (pres st.1 = ents fr fc (colsBefore son j ++ rowsBefore son j m) (k + 1) ∧
            (posts st.1).Perm (ents fr fc (colsBefore son j ++ rowsBefore son j m) (k + 1))) ∧
            st.2.1 = k + 1 + (colsBefore son j ++ rowsBefore son j m).length ∧
            st.2.2 = Split.at fr rc' wr m) ?_ ?_
          · refine foldFinM_tot (P := fun i (st : List (BEvent K) × Nat × Nat) =>
              (pres st.1 = ents fr fc (colsBefore son j ++ rowsBefore son j i) (k + 1) ∧
              (posts st.1).Perm (ents fr fc (colsBefore son j ++ rowsBefore son j i) (k + 1))) ∧
              st.2.1 = k + 1 + (colsBefore son j ++ rowsBefore son j i).length ∧
              st.2.2 = Split.at fr rc' wr i) ?_ ?_
            · simp [rowsBefore_zero, h1, h1', h2]
            · rintro i ⟨ev, bn, rn⟩ ⟨⟨h4, h4'⟩, h5, h6⟩
              simp only at h4 h4' h5 h6
              simp only [h3, h6]
              rw [← sr.at_name hnr i, ← sc.at_name hnc j]
              refine Tot.bind (ih i j (rr i) (cr j) (hs i j) (hd2 i j) (sr.desc hdr i) (sc.desc hdc j)
                (sr.naming hnr i) (sc.naming hnc j) bn) ?_
              rintro e _ ⟨h7, h7'⟩
              refine Tot.pure ⟨⟨?_, ?_⟩, ?_, ?_⟩
              · rw [pres_append, h4, h7, rowsBefore_succ, ← List.append_assoc, ents_append _ _ _ (bnodes _), h5]
              · rw [posts_append, rowsBefore_succ, ← List.append_assoc, ents_append _ _ _ (bnodes _)]
                rw [h5] at h7'
                exact h4'.append h7'
              · simp only [h5, rowsBefore_succ, List.length_append,
                  hd2 i j _ (mem_bnodes_self _)]
                omega
              · simp only
                rw [sr.at_succ, sr.at_name hnr i]
          · rintro ⟨ev, bn, rn⟩ _ ⟨h4, h5, h6⟩
            simp only at h4 h5 h6
            refine Tot.cassert (by simp [h6, sr.at_last hdr]) (Tot.pure ?_)
            simp only [colsBefore_succ]
            exact ⟨h4, h5, by rw [h3, sc.at_succ]⟩
      · rintro ⟨ev, bn, cn⟩ _ ⟨h1, h2, h3⟩
        simp only at h1 h2 h3
        refine Tot.cassert (by simp [h3, sc.at_last hdc]) (Tot.cassert (by simp [h2, hd1]; omega) (Tot.pure (fin _ h1)))

/-! ### row lists -/

/-- members of the list of row cluster `t` -/
structure RowOK (fr fc : CRef K → Nat) (t : CRef K) (e : BEntry K) : Prop where
  tree : BlockTree t e.b.cc e.b
  bdesc : BDescExact e.b
  rname : e.rname = fr t
  cname : e.cname = fc e.b.cc
  cdesc : DescExact e.b.cc.cl
  cnaming : IsNaming fc e.b.cc
  rdesc : DescExact t.cl
  rnaming : IsNaming fr t
  rcons : Consistent t.cl

/-- all blocks below the entry, or just the entry if its sons are in the same list -/
def rowOwn (fr fc : CRef K → Nat) (e : BEntry K) : Multiset (BEntry K) :=
  match e with
  | ⟨.mk rc cc a d m n son, bn, rn, cn⟩ =>
    if h : 0 < m ∧ 0 < n then
      if (son ⟨0, h.1⟩ ⟨0, h.2⟩).rc.same rc then {⟨.mk rc cc a d m n son, bn, rn, cn⟩}
      else ↑(ents fr fc (bnodes (.mk rc cc a d m n son)) bn)
    else ↑(ents fr fc (bnodes (.mk rc cc a d m n son)) bn)

theorem colsBefore_one_row {n : Nat} (son : Fin 1 → Fin n → Block K) (j : Fin n) :
    colsBefore son (j.1 + 1) = colsBefore son j.1 ++ bnodes (son 0 j) := by
  have h := rowsBefore_succ son j 0
  rw [Fin.val_zero, rowsBefore_zero] at h
  rw [colsBefore_succ]
  congr 1

theorem addrow_tot (fr fc : CRef K → Nat) (b : Block K) : ∀ (rc cc : CRef K), BlockTree rc cc b → BDescExact b →
    DescExact rc.cl → DescExact cc.cl → IsNaming fr rc → IsNaming fc cc → Consistent rc.cl →
    ∀ k next, Tot (b.addrow k (fr rc) (fc cc) next) fun l => ∃ L, l = L ++ next ∧ (∀ e ∈ L, RowOK fr fc rc e) ∧
      ownL (rowOwn fr fc) L = ↑(ents fr fc (bnodes b) k) := by
  induction b with
  | mk rc' cc' a d m n son ih =>
    intro rc cc hb hd hdr hdc hnr hnc hcr k next
    have hb' := hb
    obtain ⟨rfl, rfl, hsplit⟩ := blockTree_split hb
    obtain ⟨hd1, hd2⟩ := bdesc_son hd
    have hself : RowOK fr fc rc' ⟨.mk rc' cc' a d m n son, k, fr rc', fc cc'⟩ :=
      ⟨hb', hd, rfl, rfl, hdc, hnc, hdr, hnr, hcr⟩
    rw [Block.addrow]
    rcases hsplit with ⟨rfl, rfl⟩ | ⟨rr, cr, wr, wc, sr, sc, hw, hs⟩
    · rw [dif_neg (by simp)]
      refine Tot.pure ⟨[_], rfl, by simpa using hself, ?_⟩
      simp [ownL, rowOwn]
    · rw [dif_pos ⟨sr.pos, sc.pos⟩]
      have er : ∀ i j, (son i j).rc = rr i := fun i j => (blockTree_refs (hs i j)).1
      have ec : ∀ i j, (son i j).cc = cr j := fun i j => (blockTree_refs (hs i j)).2
      have hown : rowOwn fr fc ⟨.mk rc' cc' a d m n son, k, fr rc', fc cc'⟩ =
          if wr then {⟨.mk rc' cc' a d m n son, k, fr rc', fc cc'⟩}
          else ↑(ents fr fc (bnodes (.mk rc' cc' a d m n son)) k) := by
        simp only [rowOwn]
        rw [dif_pos ⟨sr.pos, sc.pos⟩, er, sr.same]
      rw [er, sr.same]
      cases wr with
      | false =>
        rw [if_neg (by simp)]
        refine Tot.pure ⟨[_], rfl, by simpa using hself, ?_⟩
        simp [ownL, hown]
      | true =>
        rw [if_pos rfl]
        obtain ⟨rfl, hr1⟩ := sr.self rfl
        obtain ⟨rfl, hc1⟩ := sc.sons (by simpa using hw)
        refine Tot.cassert (by simp) ?_
        rw [bnodes_cols]
        refine Tot.bind (P := fun (st : List (BEntry K) × Nat × Nat) => (∃ L, st.1 = L ++ next ∧ (∀ e ∈ L, RowOK fr fc rc' e) ∧
          ownL (rowOwn fr fc) L =
            ↑(ents fr fc (.mk rc' cc' a d 1 cc'.nsons son :: colsBefore son cc'.nsons) k)) ∧
          st.2.1 = k + 1 + (colsBefore son cc'.nsons).length ∧ st.2.2 = sonName cc' (fc cc') cc'.nsons) ?_ ?_
        · refine foldFinM_tot (P := fun j (st : List (BEntry K) × Nat × Nat) => (∃ L, st.1 = L ++ next ∧ (∀ e ∈ L, RowOK fr fc rc' e) ∧
            ownL (rowOwn fr fc) L = ↑(ents fr fc (.mk rc' cc' a d 1 cc'.nsons son :: colsBefore son j) k)) ∧
            st.2.1 = k + 1 + (colsBefore son j).length ∧ st.2.2 = sonName cc' (fc cc') j) ?_ ?_
          · refine ⟨⟨[_], rfl, by simpa using hself, ?_⟩, by simp [colsBefore_zero], by simp [sonName_zero]⟩
            simp [ownL, hown, colsBefore_zero, ents_cons, ents_nil, Block.rc, Block.cc]
          · rintro j ⟨pb, bn, cn⟩ ⟨⟨L, h1, h1', h1''⟩, h2, h3⟩
            simp only at h1 h2 h3
            have hj : son ⟨j.1 % 1, Nat.mod_lt _ sr.pos⟩ ⟨j.1 / 1, lt_of_le_of_lt (Nat.div_le_self _ _) j.2⟩ =
                son 0 j := by
              congr 1 <;> apply Fin.ext <;> simp
              all_goals omega
            simp only [h3, hj]
            have h0j : son ⟨0, sr.pos⟩ j = son 0 j := rfl
            have hnc' := hnc cc' .refl j
            rw [← hnc', h0j]
            have hs' : BlockTree rc' (cc'.son j) (son 0 j) := by
              have := hs 0 j
              rwa [hr1, hc1] at this
            refine Tot.bind (ih 0 j rc' (cc'.son j) hs' (hd2 0 j) hdr (descExact_son hdc j) hnr (hnc.son j)
              hcr bn pb) ?_
            rintro pb' _ ⟨L', h4, h4', h4''⟩
            have hget : cc'.cl.sons[j.1]? = some (cc'.son j).cl := List.getElem?_eq_getElem (l := cc'.cl.sons) j.2
            rw [hget]
            refine Tot.pure ⟨⟨L' ++ L, by rw [h4, h1, List.append_assoc], ?_, ?_⟩, ?_, ?_⟩
            · intro e he
              rcases List.mem_append.1 he with he | he
              · exact h4' e he
              · exact h1' e he
            · rw [ownL_append, h4'', h1'', colsBefore_one_row, ← List.cons_append, ents_append _ _ _ (bnodes _), h2,
                ← Multiset.coe_add, add_comm]
              congr 3
              simp; omega
            · rw [colsBefore_one_row, List.length_append, h2]
              simp only [hd2 0 j _ (mem_bnodes_self _)]
              omega
            · show fc (cc'.son j) + (cc'.son j).cl.desc = _
              rw [sonName_succ, hnc']
        · rintro ⟨pb, bn, cn⟩ _ ⟨h1, h2, h3⟩
          simp only at h1 h2 h3
          refine Tot.cassert (by simp [h2, hd1]; omega) (Tot.cassert ?_ (Tot.pure h1))
          simp [h3, sonName_last cc' (fc cc') hdc]


theorem sum_update_append {n : Nat} (g : List (BEntry K) → Multiset (BEntry K))
    (hg : ∀ a b, g (a ++ b) = g a + g b) (L : Fin n → List (BEntry K)) (i : Fin n) (A : List (BEntry K)) :
    ∑ k, g (Function.update L i (A ++ L i) k) = ∑ k, g (L k) + g A := by
  have : ∀ k, g (Function.update L i (A ++ L i) k) = g (L k) + Pi.single (M := fun _ => Multiset (BEntry K)) i (g A) k := by
    intro k
    by_cases h : k = i
    · subst h; rw [Function.update_self, hg, Pi.single_eq_same, add_comm]
    · rw [Function.update_of_ne h, Pi.single_eq_of_ne h, add_zero]
  rw [Finset.sum_congr rfl fun k _ => this k, Finset.sum_add_distrib, Finset.sum_pi_single']
  simp

/-- state of the lists of the sons while the list of the father is being processed -/
def ListInv (own : BEntry K → Multiset (BEntry K)) (OK : CRef K → BEntry K → Prop) (t : CRef K)
    (pb1 : Lists K t.nsons) (l : Multiset (BEntry K)) (pb : Lists K t.nsons) : Prop :=
  ∃ L : Lists K t.nsons, (∀ i, pb i = L i ++ pb1 i) ∧ (∀ i, ∀ e ∈ L i, OK (t.son i) e) ∧ ∑ i, ownL own (L i) = l

theorem ListInv.start (own : BEntry K → Multiset (BEntry K)) (OK : CRef K → BEntry K → Prop) (t : CRef K)
    (pb1 : Lists K t.nsons) : ListInv own OK t pb1 0 pb1 :=
  ⟨fun _ => [], fun _ => rfl, fun _ e he => (by cases he), by simp [ownL_nil]⟩

theorem ListInv.step {own : BEntry K → Multiset (BEntry K)} {OK : CRef K → BEntry K → Prop} {t : CRef K}
    {pb1 pb : Lists K t.nsons} {l : Multiset (BEntry K)} (h : ListInv own OK t pb1 l pb) (i : Fin t.nsons)
    {A : List (BEntry K)} (hA : ∀ e ∈ A, OK (t.son i) e) :
    ListInv own OK t pb1 (l + ownL own A) (Function.update pb i (A ++ pb i)) := by
  obtain ⟨L, h1, h2, h3⟩ := h
  refine ⟨Function.update L i (A ++ L i), ?_, ?_, ?_⟩
  · intro k
    by_cases hk : k = i
    · subst hk; rw [Function.update_self, Function.update_self, h1, List.append_assoc]
    · rw [Function.update_of_ne hk, Function.update_of_ne hk, h1]
  · intro k e he
    by_cases hk : k = i
    · subst hk
      rw [Function.update_self] at he
      rcases List.mem_append.1 he with he | he
      · exact hA e he
      · exact h2 _ e he
    · rw [Function.update_of_ne hk] at he; exact h2 k e he
  · rw [sum_update_append _ (ownL_append own), h3]

theorem rowStep_tot (fr fc : CRef K → Nat) {t : CRef K} {e : BEntry K} (he : RowOK fr fc t e)
    (pb1 : Lists K t.nsons) : Tot (rowStep t (fr t) e pb1) fun pb =>
      ∃ l, ListInv (rowOwn fr fc) (RowOK fr fc) t pb1 l pb ∧ rowOwn fr fc e = {e} + l := by
  obtain ⟨b, k, rn, cn⟩ := e
  cases b with
  | mk rc' cc' a d m n son =>
  have hb : BlockTree t cc' (.mk rc' cc' a d m n son) := he.tree
  have hdr := he.rdesc
  have hnr := he.rnaming
  have hdc : DescExact cc'.cl := he.cdesc
  have hnc : IsNaming fc cc' := he.cnaming
  have hcr := he.rcons
  have hrn : rn = fr t := he.rname
  have hcn : cn = fc cc' := he.cname
  have hbd := he.bdesc
  subst hrn hcn
  obtain ⟨rfl, _, hsplit⟩ := blockTree_split hb
  obtain ⟨hd1, hd2⟩ := bdesc_son hbd
  simp only [rowStep]
  refine Tot.cassert (same_self _) ?_
  rcases hsplit with ⟨rfl, rfl⟩ | ⟨rr, cr, wr, wc, sr, sc, hw, hs⟩
  · rw [dif_neg (by simp)]
    refine Tot.pure ⟨0, ListInv.start _ _ _ _, ?_⟩
    simp [rowOwn, bnodes_cols, colsBefore, ents_cons, ents_nil, Block.rc, Block.cc]
  · rw [dif_pos ⟨sr.pos, sc.pos⟩]
    have er : ∀ i j, (son i j).rc = rr i := fun i j => (blockTree_refs (hs i j)).1
    have ec : ∀ i j, (son i j).cc = cr j := fun i j => (blockTree_refs (hs i j)).2
    have hown : rowOwn fr fc ⟨.mk rc' cc' a d m n son, k, fr rc', fc cc'⟩ =
        if wr then {⟨.mk rc' cc' a d m n son, k, fr rc', fc cc'⟩}
        else ↑(ents fr fc (bnodes (.mk rc' cc' a d m n son)) k) := by
      simp only [rowOwn]
      rw [dif_pos ⟨sr.pos, sc.pos⟩, er, sr.same]
    rw [er, sr.same]
    cases wr with
    | true =>
      rw [if_pos rfl]
      exact Tot.pure ⟨0, ListInv.start _ _ _ _, by rw [hown]; simp⟩
    | false =>
      rw [if_neg (by simp)]
      obtain ⟨rfl, hr1⟩ := sr.sons rfl
      simp only [Fin.cast_eq_self] at hr1
      obtain rfl : rr = rc'.son := funext hr1
      refine Tot.cassert (by simp) (Tot.cassert (by simp) ?_)
      simp only [ec, sc.same]
      have hz := Split.at_zero fc cc' wc
      change _ = (if wc = true then fc cc' else fc cc' + 1) at hz
      rw [← hz]
      refine Tot.bind (P := fun (st : Lists K rc'.nsons × Nat × Nat) =>
        ListInv (rowOwn fr fc) (RowOK fr fc) rc' pb1 ↑(ents fr fc (colsBefore son n) (k + 1)) st.1 ∧
        st.2.1 = k + 1 + (colsBefore son n).length ∧ st.2.2 = Split.at fc cc' wc n) ?_ ?_
      · refine foldFinM_tot (P := fun j (st : Lists K rc'.nsons × Nat × Nat) =>
          ListInv (rowOwn fr fc) (RowOK fr fc) rc' pb1 ↑(ents fr fc (colsBefore son j) (k + 1)) st.1 ∧
          st.2.1 = k + 1 + (colsBefore son j).length ∧ st.2.2 = Split.at fc cc' wc j) ?_ ?_
        · simp only [colsBefore_zero, ents_nil]
          exact ⟨ListInv.start _ _ _ _, by simp, by simp⟩
        · rintro j ⟨pb, bn, cn⟩ ⟨h1, h2, h3⟩
          simp only at h1 h2 h3
          refine Tot.bind (P := fun (st : Lists K rc'.nsons × Nat × Nat) =>
            ListInv (rowOwn fr fc) (RowOK fr fc) rc' pb1
              ↑(ents fr fc (colsBefore son j ++ rowsBefore son j rc'.nsons) (k + 1)) st.1 ∧
            st.2.1 = k + 1 + (colsBefore son j ++ rowsBefore son j rc'.nsons).length ∧
            st.2.2 = sonName rc' (fr rc') rc'.nsons) ?_ ?_
          · refine foldFinM_tot (P := fun i (st : Lists K rc'.nsons × Nat × Nat) =>
              ListInv (rowOwn fr fc) (RowOK fr fc) rc' pb1
                ↑(ents fr fc (colsBefore son j ++ rowsBefore son j i) (k + 1)) st.1 ∧
              st.2.1 = k + 1 + (colsBefore son j ++ rowsBefore son j i).length ∧
              st.2.2 = sonName rc' (fr rc') i) ?_ ?_
            · simp only [rowsBefore_zero, List.append_nil]
              exact ⟨h1, h2, (sonName_zero _ _).symm⟩
            · rintro i ⟨pb, bn, rn⟩ ⟨h4, h5, h6⟩
              simp only at h4 h5 h6
              simp only [h3, h6, er]
              rw [dif_pos i.2]
              refine Tot.cassert (same_self _) ?_
              have hnm := hnr rc' .refl i
              rw [← hnm, ← sc.at_name hnc j]
              have hc1 := consistent_son hcr i
              refine Tot.bind (addrow_tot fr fc (son i j) (rc'.son i) (cr j) (hs i j) (hd2 i j)
                (descExact_son hdr i) (sc.desc hdc j) (hnr.son i) (sc.naming hnc j) hc1 bn (pb i)) ?_
              rintro l _ ⟨A, rfl, hA, hA'⟩
              refine Tot.pure ⟨?_, ?_, ?_⟩
              · have := h4.step i hA
                rw [hA', Multiset.coe_add, h5, ← ents_append, List.append_assoc, ← rowsBefore_succ] at this
                exact this
              · simp only [h5, rowsBefore_succ, List.length_append, hd2 i j _ (mem_bnodes_self _)]
                omega
              · show fr (rc'.son i) + (rc'.son i).cl.desc = _
                rw [sonName_succ, hnm]
          · rintro ⟨pb, bn, rn⟩ _ ⟨h4, h5, h6⟩
            simp only at h4 h5 h6
            refine Tot.cassert (by simp [h6, sonName_last _ _ hdr]) (Tot.pure ?_)
            simp only [colsBefore_succ]
            exact ⟨h4, h5, by rw [h3, sc.at_succ]⟩
      · rintro ⟨pb, bn, cn⟩ _ ⟨h1, h2, h3⟩
        simp only at h1 h2 h3
        refine Tot.cassert (by simp [h2, hd1]; omega) (Tot.cassert (by simp [h3, sc.at_last hdc]) (Tot.pure ⟨_, h1, ?_⟩))
        rw [hown, if_neg (by simp), bnodes_cols, ents_cons]
        rfl


theorem rowLists_spec (fr fc : CRef K → Nat) : ListSpec rowLists fr (RowOK fr fc) (rowOwn fr fc) := by
  refine ⟨fun t e h => h.rnaming, fun t e h => h.rdesc, ?_, ?_⟩
  · rintro t ⟨b, k, rn, cn⟩ h h0
    cases b with
    | mk rc' cc' a d m n son =>
      have hb : BlockTree t cc' (.mk rc' cc' a d m n son) := h.tree
      obtain ⟨rfl, _, hsplit⟩ := blockTree_split hb
      have hrn : rn = fr rc' := h.rname
      have hcn : cn = fc cc' := h.cname
      rcases hsplit with ⟨rfl, rfl⟩ | ⟨rr, cr, wr, wc, sr, sc, hw, hs⟩
      · simp [rowOwn, bnodes_cols, colsBefore, ents_cons, ents_nil, Block.rc, Block.cc, hrn, hcn]
      · have er : ∀ i j, (son i j).rc = rr i := fun i j => (blockTree_refs (hs i j)).1
        simp only [rowOwn]
        rw [dif_pos ⟨sr.pos, sc.pos⟩, er, sr.same]
        cases wr with
        | true => simp
        | false =>
          obtain ⟨e, _⟩ := sr.sons rfl
          have := sr.pos
          omega
  · intro t pb hok h0
    suffices H : ∀ (pb : List (BEntry K)), (∀ e ∈ pb, RowOK fr fc t e) → ∀ pb0 : Lists K t.nsons,
        (∀ i, ∀ e ∈ pb0 i, RowOK fr fc (t.son i) e) →
        Tot (pb.foldlM (fun pb1 e => rowStep t (fr t) e pb1) pb0) fun pb1 =>
          (∀ i, ∀ e ∈ pb1 i, RowOK fr fc (t.son i) e) ∧
          ↑pb + ∑ i, ownL (rowOwn fr fc) (pb1 i) = ownL (rowOwn fr fc) pb + ∑ i, ownL (rowOwn fr fc) (pb0 i) by
      have := H pb hok (fun _ => []) (fun i e he => by cases he)
      simpa [ownL_nil, rowLists] using this
    intro pb
    induction pb with
    | nil => intro _ pb0 h; exact ⟨pb0, rfl, h, by simp [ownL_nil]⟩
    | cons e pb ih =>
      intro hok pb0 h
      rw [List.foldlM_cons]
      refine Tot.bind (rowStep_tot fr fc (hok e List.mem_cons_self) pb0) ?_
      rintro pb' _ ⟨l, ⟨L, h1, h2, h3⟩, h4⟩
      refine Tot.mono (ih (fun e he => hok e (List.mem_cons_of_mem _ he)) pb' ?_) ?_
      · intro i e' he'
        rw [h1, List.mem_append] at he'
        exact he'.elim (h2 i e') (h i e')
      · rintro pb1 ⟨h5, h6⟩
        refine ⟨h5, ?_⟩
        simp only [h1, ownL_append, Finset.sum_add_distrib, h3] at h6
        rw [ownL_cons, h4, ← Multiset.cons_coe, ← Multiset.singleton_add, add_assoc, h6]
        abel

/-! ### column lists -/

/-- members of the list of column cluster `t` -/
structure ColOK (fr fc : CRef K → Nat) (t : CRef K) (e : BEntry K) : Prop where
  tree : BlockTree e.b.rc t e.b
  bdesc : BDescExact e.b
  cname : e.cname = fc t
  rname : e.rname = fr e.b.rc
  rdesc : DescExact e.b.rc.cl
  rnaming : IsNaming fr e.b.rc
  cdesc : DescExact t.cl
  cnaming : IsNaming fc t
  ccons : Consistent t.cl

def colOwn (fr fc : CRef K → Nat) (e : BEntry K) : Multiset (BEntry K) :=
  match e with
  | ⟨.mk rc cc a d m n son, bn, rn, cn⟩ =>
    if h : 0 < m ∧ 0 < n then
      if (son ⟨0, h.1⟩ ⟨0, h.2⟩).cc.same cc then {⟨.mk rc cc a d m n son, bn, rn, cn⟩}
      else ↑(ents fr fc (bnodes (.mk rc cc a d m n son)) bn)
    else ↑(ents fr fc (bnodes (.mk rc cc a d m n son)) bn)

theorem colsBefore_one_col {m : Nat} (son : Fin m → Fin 1 → Block K) :
    colsBefore son 1 = rowsBefore son 0 m := by
  have h := colsBefore_succ son 0
  rw [Fin.val_zero, colsBefore_zero, List.nil_append] at h
  exact h

theorem addcol_tot (fr fc : CRef K → Nat) (b : Block K) : ∀ (rc cc : CRef K), BlockTree rc cc b → BDescExact b →
    DescExact rc.cl → DescExact cc.cl → IsNaming fr rc → IsNaming fc cc → Consistent cc.cl →
    ∀ k next, Tot (b.addcol k (fr rc) (fc cc) next) fun l => ∃ L, l = L ++ next ∧ (∀ e ∈ L, ColOK fr fc cc e) ∧
      ownL (colOwn fr fc) L = ↑(ents fr fc (bnodes b) k) := by
  induction b with
  | mk rc' cc' a d m n son ih =>
    intro rc cc hb hd hdr hdc hnr hnc hcr k next
    have hb' := hb
    obtain ⟨rfl, rfl, hsplit⟩ := blockTree_split hb
    obtain ⟨hd1, hd2⟩ := bdesc_son hd
    have hself : ColOK fr fc cc' ⟨.mk rc' cc' a d m n son, k, fr rc', fc cc'⟩ :=
      ⟨hb', hd, rfl, rfl, hdr, hnr, hdc, hnc, hcr⟩
    rw [Block.addcol]
    rcases hsplit with ⟨rfl, rfl⟩ | ⟨rr, cr, wr, wc, sr, sc, hw, hs⟩
    · rw [dif_neg (by simp)]
      refine Tot.pure ⟨[_], rfl, by simpa using hself, ?_⟩
      simp [ownL, colOwn]
    · rw [dif_pos ⟨sr.pos, sc.pos⟩]
      have er : ∀ i j, (son i j).rc = rr i := fun i j => (blockTree_refs (hs i j)).1
      have ec : ∀ i j, (son i j).cc = cr j := fun i j => (blockTree_refs (hs i j)).2
      have hown : colOwn fr fc ⟨.mk rc' cc' a d m n son, k, fr rc', fc cc'⟩ =
          if wc then {⟨.mk rc' cc' a d m n son, k, fr rc', fc cc'⟩}
          else ↑(ents fr fc (bnodes (.mk rc' cc' a d m n son)) k) := by
        simp only [colOwn]
        rw [dif_pos ⟨sr.pos, sc.pos⟩, ec, sc.same]
      rw [ec, sc.same]
      cases wc with
      | false =>
        rw [if_neg (by simp)]
        refine Tot.pure ⟨[_], rfl, by simpa using hself, ?_⟩
        simp [ownL, hown]
      | true =>
        rw [if_pos rfl]
        obtain ⟨rfl, hc1⟩ := sc.self rfl
        obtain ⟨rfl, hr1⟩ := sr.sons (by simpa using hw)
        refine Tot.cassert (by simp) ?_
        rw [bnodes_cols, colsBefore_one_col]
        refine Tot.bind (P := fun (st : List (BEntry K) × Nat × Nat) => (∃ L, st.1 = L ++ next ∧
          (∀ e ∈ L, ColOK fr fc cc' e) ∧ ownL (colOwn fr fc) L =
            ↑(ents fr fc (.mk rc' cc' a d rc'.nsons 1 son :: rowsBefore son 0 rc'.nsons) k)) ∧
          st.2.1 = k + 1 + (rowsBefore son 0 rc'.nsons).length ∧ st.2.2 = sonName rc' (fr rc') rc'.nsons) ?_ ?_
        · refine foldFinM_tot (P := fun i (st : List (BEntry K) × Nat × Nat) => (∃ L, st.1 = L ++ next ∧
            (∀ e ∈ L, ColOK fr fc cc' e) ∧ ownL (colOwn fr fc) L =
              ↑(ents fr fc (.mk rc' cc' a d rc'.nsons 1 son :: rowsBefore son 0 i) k)) ∧
            st.2.1 = k + 1 + (rowsBefore son 0 i).length ∧ st.2.2 = sonName rc' (fr rc') i) ?_ ?_
          · refine ⟨⟨[_], rfl, by simpa using hself, ?_⟩, by simp [rowsBefore_zero], by simp [sonName_zero]⟩
            simp [ownL, hown, rowsBefore_zero, ents_cons, ents_nil, Block.rc, Block.cc]
          · rintro i ⟨pb, bn, rn⟩ ⟨⟨L, h1, h1', h1''⟩, h2, h3⟩
            simp only at h1 h2 h3
            simp only [h3]
            have h0j : son i ⟨0, sc.pos⟩ = son i 0 := rfl
            have hnr' := hnr rc' .refl i
            rw [← hnr', h0j]
            have hs' : BlockTree (rc'.son i) cc' (son i 0) := by
              have := hs i 0
              rwa [hr1, hc1] at this
            refine Tot.bind (ih i 0 (rc'.son i) cc' hs' (hd2 i 0) (descExact_son hdr i) hdc (hnr.son i) hnc
              hcr bn pb) ?_
            rintro pb' _ ⟨L', h4, h4', h4''⟩
            have hget : rc'.cl.sons[i.1]? = some (rc'.son i).cl := List.getElem?_eq_getElem (l := rc'.cl.sons) i.2
            rw [hget]
            refine Tot.pure ⟨⟨L' ++ L, by rw [h4, h1, List.append_assoc], ?_, ?_⟩, ?_, ?_⟩
            · intro e he
              rcases List.mem_append.1 he with he | he
              · exact h4' e he
              · exact h1' e he
            · rw [ownL_append, h4'', h1'', rowsBefore_succ, ← List.cons_append, ents_append _ _ _ (bnodes _), h2,
                ← Multiset.coe_add, add_comm]
              congr 3
              simp; omega
            · rw [rowsBefore_succ, List.length_append, h2]
              simp only [hd2 i 0 _ (mem_bnodes_self _)]
              omega
            · show fr (rc'.son i) + (rc'.son i).cl.desc = _
              rw [sonName_succ, hnr']
        · rintro ⟨pb, bn, rn⟩ _ ⟨h1, h2, h3⟩
          simp only at h1 h2 h3
          rw [colsBefore_one_col] at hd1
          refine Tot.cassert (by simp [h2, hd1]; omega) (Tot.cassert ?_ (Tot.pure h1))
          simp [h3, sonName_last rc' (fr rc') hdr]

theorem colStep_tot (fr fc : CRef K → Nat) {t : CRef K} {e : BEntry K} (he : ColOK fr fc t e)
    (pb1 : Lists K t.nsons) : Tot (colStep t (fc t) e pb1) fun pb =>
      ∃ l, ListInv (colOwn fr fc) (ColOK fr fc) t pb1 l pb ∧ colOwn fr fc e = {e} + l := by
  obtain ⟨b, k, rn, cn⟩ := e
  cases b with
  | mk rc' cc' a d m n son =>
  have hb : BlockTree rc' t (.mk rc' cc' a d m n son) := he.tree
  have hdr : DescExact rc'.cl := he.rdesc
  have hnr : IsNaming fr rc' := he.rnaming
  have hdc := he.cdesc
  have hnc := he.cnaming
  have hcr := he.ccons
  have hrn : rn = fr rc' := he.rname
  have hcn : cn = fc t := he.cname
  have hbd := he.bdesc
  subst hrn hcn
  obtain ⟨_, rfl, hsplit⟩ := blockTree_split hb
  obtain ⟨hd1, hd2⟩ := bdesc_son hbd
  simp only [colStep]
  refine Tot.cassert (same_self _) ?_
  rcases hsplit with ⟨rfl, rfl⟩ | ⟨rr, cr, wr, wc, sr, sc, hw, hs⟩
  · rw [dif_neg (by simp)]
    refine Tot.pure ⟨0, ListInv.start _ _ _ _, ?_⟩
    simp [colOwn, bnodes_cols, colsBefore, ents_cons, ents_nil, Block.rc, Block.cc]
  · rw [dif_pos ⟨sr.pos, sc.pos⟩]
    have er : ∀ i j, (son i j).rc = rr i := fun i j => (blockTree_refs (hs i j)).1
    have ec : ∀ i j, (son i j).cc = cr j := fun i j => (blockTree_refs (hs i j)).2
    have hown : colOwn fr fc ⟨.mk rc' cc' a d m n son, k, fr rc', fc cc'⟩ =
        if wc then {⟨.mk rc' cc' a d m n son, k, fr rc', fc cc'⟩}
        else ↑(ents fr fc (bnodes (.mk rc' cc' a d m n son)) k) := by
      simp only [colOwn]
      rw [dif_pos ⟨sr.pos, sc.pos⟩, ec, sc.same]
    rw [ec, sc.same]
    cases wc with
    | true =>
      rw [if_pos rfl]
      exact Tot.pure ⟨0, ListInv.start _ _ _ _, by rw [hown]; simp⟩
    | false =>
      rw [if_neg (by simp)]
      obtain ⟨rfl, hc1⟩ := sc.sons rfl
      simp only [Fin.cast_eq_self] at hc1
      obtain rfl : cr = cc'.son := funext hc1
      refine Tot.cassert (by simp) (Tot.cassert (by simp) ?_)
      simp only [ec, er, sr.same]
      have hz := Split.at_zero fr rc' wr
      change _ = (if wr = true then fr rc' else fr rc' + 1) at hz
      rw [← hz]
      refine Tot.bind (P := fun (st : Lists K cc'.nsons × Nat × Nat) =>
        ListInv (colOwn fr fc) (ColOK fr fc) cc' pb1 ↑(ents fr fc (colsBefore son cc'.nsons) (k + 1)) st.1 ∧
        st.2.1 = k + 1 + (colsBefore son cc'.nsons).length ∧ st.2.2 = sonName cc' (fc cc') cc'.nsons) ?_ ?_
      · refine foldFinM_tot (P := fun j (st : Lists K cc'.nsons × Nat × Nat) =>
          ListInv (colOwn fr fc) (ColOK fr fc) cc' pb1 ↑(ents fr fc (colsBefore son j) (k + 1)) st.1 ∧
          st.2.1 = k + 1 + (colsBefore son j).length ∧ st.2.2 = sonName cc' (fc cc') j) ?_ ?_
        · simp only [colsBefore_zero, ents_nil]
          exact ⟨ListInv.start _ _ _ _, by simp, by simp [sonName_zero]⟩
        · rintro j ⟨pb, bn, cn⟩ ⟨h1, h2, h3⟩
          simp only at h1 h2 h3
          rw [dif_pos j.2]
          have hnm := hnc cc' .refl j
          rw [← hnm] at h3
          refine Tot.bind (P := fun (st : Lists K cc'.nsons × Nat × Nat) =>
            ListInv (colOwn fr fc) (ColOK fr fc) cc' pb1
              ↑(ents fr fc (colsBefore son j ++ rowsBefore son j m) (k + 1)) st.1 ∧
            st.2.1 = k + 1 + (colsBefore son j ++ rowsBefore son j m).length ∧
            st.2.2 = Split.at fr rc' wr m) ?_ ?_
          · refine foldFinM_tot (P := fun i (st : Lists K cc'.nsons × Nat × Nat) =>
              ListInv (colOwn fr fc) (ColOK fr fc) cc' pb1
                ↑(ents fr fc (colsBefore son j ++ rowsBefore son j i) (k + 1)) st.1 ∧
              st.2.1 = k + 1 + (colsBefore son j ++ rowsBefore son j i).length ∧
              st.2.2 = Split.at fr rc' wr i) ?_ ?_
            · simp only [rowsBefore_zero, List.append_nil]
              exact ⟨h1, h2, by simp⟩
            · rintro i ⟨pb, bn, rn⟩ ⟨h4, h5, h6⟩
              simp only at h4 h5 h6
              simp only [h3, h6]
              refine Tot.cassert (same_self _) ?_
              rw [← sr.at_name hnr i]
              have hc1 := consistent_son hcr j
              refine Tot.bind (addcol_tot fr fc (son i j) (rr i) (cc'.son j) (hs i j) (hd2 i j)
                (sr.desc hdr i) (descExact_son hdc j) (sr.naming hnr i) (hnc.son j) hc1 bn (pb j)) ?_
              rintro l _ ⟨A, rfl, hA, hA'⟩
              refine Tot.pure ⟨?_, ?_, ?_⟩
              · have := h4.step j hA
                rw [hA', Multiset.coe_add, h5, ← ents_append, List.append_assoc, ← rowsBefore_succ] at this
                exact this
              · simp only [h5, rowsBefore_succ, List.length_append, hd2 i j _ (mem_bnodes_self _)]
                omega
              · simp only
                rw [sr.at_succ, sr.at_name hnr i]
          · rintro ⟨pb, bn, rn⟩ _ ⟨h4, h5, h6⟩
            simp only at h4 h5 h6
            refine Tot.cassert (by simp [h6, sr.at_last hdr]) (Tot.pure ?_)
            simp only [colsBefore_succ]
            exact ⟨h4, h5, by rw [h3, sonName_succ, hnm]⟩
      · rintro ⟨pb, bn, cn⟩ _ ⟨h1, h2, h3⟩
        simp only at h1 h2 h3
        refine Tot.cassert (by simp [h2, hd1]; omega)
          (Tot.cassert (by simp [h3, sonName_last _ _ hdc]) (Tot.pure ⟨_, h1, ?_⟩))
        rw [hown, if_neg (by simp), bnodes_cols, ents_cons]
        rfl

theorem colLists_spec (fr fc : CRef K → Nat) : ListSpec colLists fc (ColOK fr fc) (colOwn fr fc) := by
  refine ⟨fun t e h => h.cnaming, fun t e h => h.cdesc, ?_, ?_⟩
  · rintro t ⟨b, k, rn, cn⟩ h h0
    cases b with
    | mk rc' cc' a d m n son =>
      have hb : BlockTree rc' t (.mk rc' cc' a d m n son) := h.tree
      obtain ⟨_, rfl, hsplit⟩ := blockTree_split hb
      have hrn : rn = fr rc' := h.rname
      have hcn : cn = fc cc' := h.cname
      rcases hsplit with ⟨rfl, rfl⟩ | ⟨rr, cr, wr, wc, sr, sc, hw, hs⟩
      · simp [colOwn, bnodes_cols, colsBefore, ents_cons, ents_nil, Block.rc, Block.cc, hrn, hcn]
      · have ec : ∀ i j, (son i j).cc = cr j := fun i j => (blockTree_refs (hs i j)).2
        simp only [colOwn]
        rw [dif_pos ⟨sr.pos, sc.pos⟩, ec, sc.same]
        cases wc with
        | true => simp
        | false =>
          obtain ⟨e, _⟩ := sc.sons rfl
          have := sc.pos
          omega
  · intro t pb hok h0
    suffices H : ∀ (pb : List (BEntry K)), (∀ e ∈ pb, ColOK fr fc t e) → ∀ pb0 : Lists K t.nsons,
        (∀ i, ∀ e ∈ pb0 i, ColOK fr fc (t.son i) e) →
        Tot (pb.foldlM (fun pb1 e => colStep t (fc t) e pb1) pb0) fun pb1 =>
          (∀ i, ∀ e ∈ pb1 i, ColOK fr fc (t.son i) e) ∧
          ↑pb + ∑ i, ownL (colOwn fr fc) (pb1 i) = ownL (colOwn fr fc) pb + ∑ i, ownL (colOwn fr fc) (pb0 i) by
      have := H pb hok (fun _ => []) (fun i e he => by cases he)
      simpa [ownL_nil, colLists] using this
    intro pb
    induction pb with
    | nil => intro _ pb0 h; exact ⟨pb0, rfl, h, by simp [ownL_nil]⟩
    | cons e pb ih =>
      intro hok pb0 h
      rw [List.foldlM_cons]
      refine Tot.bind (colStep_tot fr fc (hok e List.mem_cons_self) pb0) ?_
      rintro pb' _ ⟨l, ⟨L, h1, h2, h3⟩, h4⟩
      refine Tot.mono (ih (fun e he => hok e (List.mem_cons_of_mem _ he)) pb' ?_) ?_
      · intro i e' he'
        rw [h1, List.mem_append] at he'
        exact he'.elim (h2 i e') (h i e')
      · rintro pb1 ⟨h5, h6⟩
        refine ⟨h5, ?_⟩
        simp only [h1, ownL_append, Finset.sum_add_distrib, h3] at h6
        rw [ownL_cons, h4, ← Multiset.cons_coe, ← Multiset.singleton_add, add_assoc, h6]
        abel


/-! ### results -/

theorem bnodes_under {rc cc : CRef K} {b : Block K} (h : BlockTree rc cc b) :
    ∀ s ∈ bnodes b, Under rc s.rc ∧ Under cc s.cc := by
  induction b generalizing rc cc with
  | mk rc' cc' a d m n son ih =>
    obtain ⟨rfl, rfl, hsplit⟩ := blockTree_split h
    rw [forall_bnodes_mk]
    refine ⟨⟨.refl, .refl⟩, fun i j s hs => ?_⟩
    rcases hsplit with ⟨rfl, rfl⟩ | ⟨rr, cr, wr, wc, sr, sc, hw, hs'⟩
    · exact i.elim0
    · obtain ⟨h1, h2⟩ := ih i j (hs' i j) s hs
      exact ⟨(sr.under i).trans h1, (sc.under j).trans h2⟩

theorem inC_under {t u : CRef K} (h : Under t u) (hc : Consistent t.cl) : ∀ r, InC u r → InC t r := by
  have key : ∀ {t u : CRef K}, Under t u → Consistent t.cl → Consistent u.cl ∧ ∀ r, InC u r → InC t r := by
    intro t u h
    induction h with
    | refl => exact fun hc => ⟨hc, fun _ h => h⟩
    | son i _ ih =>
      intro hc
      obtain ⟨h1, h2⟩ := ih hc
      exact ⟨consistent_son h1 i, fun r hr => h2 r (inC_son h1 i hr)⟩
  exact (key h hc).2

theorem mem_ents {fr fc : CRef K → Nat} {l : List (Block K)} {k : Nat} {x : BEntry K} (h : x ∈ ents fr fc l k) :
    x.b ∈ l := by
  obtain ⟨⟨b, i⟩, hp, rfl⟩ := List.mem_map.1 h
  obtain ⟨_, _, e⟩ := List.mem_zipIdx hp
  show b ∈ l
  rw [e]; exact List.getElem_mem _

theorem mem_rowOwn {fr fc : CRef K → Nat} {e x : BEntry K} (h : x ∈ rowOwn fr fc e) : x.b ∈ bnodes e.b := by
  obtain ⟨b, k, rn, cn⟩ := e
  cases b with
  | mk rc' cc' a d m n son =>
    simp only [rowOwn] at h
    split at h
    · split at h
      · rw [Multiset.mem_singleton] at h; subst h; exact mem_bnodes_self _
      · exact mem_ents h
    · exact mem_ents h

theorem mem_colOwn {fr fc : CRef K → Nat} {e x : BEntry K} (h : x ∈ colOwn fr fc e) : x.b ∈ bnodes e.b := by
  obtain ⟨b, k, rn, cn⟩ := e
  cases b with
  | mk rc' cc' a d m n son =>
    simp only [colOwn] at h
    split at h
    · split at h
      · rw [Multiset.mem_singleton] at h; subst h; exact mem_bnodes_self _
      · exact mem_ents h
    · exact mem_ents h

theorem row_in {fr fc : CRef K → Nat} : ∀ t e, RowOK fr fc t e → ∀ x ∈ rowOwn fr fc e, ∀ r,
    InC x.b.rc r → InC t r :=
  fun _ _ h _ hx => inC_under ((bnodes_under h.tree) _ (mem_rowOwn hx)).1 h.rcons

theorem col_in {fr fc : CRef K → Nat} : ∀ t e, ColOK fr fc t e → ∀ x ∈ colOwn fr fc e, ∀ r,
    InC x.b.cc r → InC t r :=
  fun _ _ h _ hx => inC_under ((bnodes_under h.tree) _ (mem_colOwn hx)).2 h.ccons

theorem ents_expected (b : Block K) (k rn cn : Nat) :
    ents (fun t => rn + refIndex b.rc t) (fun t => cn + refIndex b.cc t) (bnodes b) k = expectedEntries b k rn cn := rfl

theorem iterate_expected {b : Block K} (h : BlockOK b) (k rn cn : Nat) :
    Tot (b.iterate k rn cn) fun ev => pres ev = expectedEntries b k rn cn ∧
      (posts ev).Perm (expectedEntries b k rn cn) := by
  have := iterate_tot (fun t => rn + refIndex b.rc t) (fun t => cn + refIndex b.cc t) b b.rc b.cc h.tree h.bdesc
    h.rdesc h.cdesc (refIndex_naming _ rn h.rdesc) (refIndex_naming _ cn h.cdesc) k
  simp only [refIndex_self, Nat.add_zero] at this
  exact this

theorem addrow_expected {b : Block K} (h : BlockOK b) (k rn cn : Nat) :
    Tot (b.addrow k rn cn []) fun l =>
      (∀ e ∈ l, RowOK (fun t => rn + refIndex b.rc t) (fun t => cn + refIndex b.cc t) b.rc e) ∧
      ownL (rowOwn (fun t => rn + refIndex b.rc t) (fun t => cn + refIndex b.cc t)) l =
        ↑(expectedEntries b k rn cn) := by
  have := addrow_tot (fun t => rn + refIndex b.rc t) (fun t => cn + refIndex b.cc t) b b.rc b.cc h.tree h.bdesc
    h.rdesc h.cdesc (refIndex_naming _ rn h.rdesc) (refIndex_naming _ cn h.cdesc) h.rcons k []
  simp only [refIndex_self, Nat.add_zero] at this
  refine Tot.mono this ?_
  rintro l ⟨L, rfl, h1, h2⟩
  rw [List.append_nil]
  exact ⟨h1, h2⟩

theorem addcol_expected {b : Block K} (h : BlockOK b) (k rn cn : Nat) :
    Tot (b.addcol k rn cn []) fun l =>
      (∀ e ∈ l, ColOK (fun t => rn + refIndex b.rc t) (fun t => cn + refIndex b.cc t) b.cc e) ∧
      ownL (colOwn (fun t => rn + refIndex b.rc t) (fun t => cn + refIndex b.cc t)) l =
        ↑(expectedEntries b k rn cn) := by
  have := addcol_tot (fun t => rn + refIndex b.rc t) (fun t => cn + refIndex b.cc t) b b.rc b.cc h.tree h.bdesc
    h.rdesc h.cdesc (refIndex_naming _ rn h.rdesc) (refIndex_naming _ cn h.cdesc) h.ccons k []
  simp only [refIndex_self, Nat.add_zero] at this
  refine Tot.mono this ?_
  rintro l ⟨L, rfl, h1, h2⟩
  rw [List.append_nil]
  exact ⟨h1, h2⟩

theorem byrow_exists {b : Block K} (h : BlockOK b) (k rn cn pd : Nat) : ∃ r, ByRowTrace b k rn cn pd r := by
  obtain ⟨pb, h1, h2, h3⟩ := addrow_expected h k rn cn
  obtain ⟨r, hr⟩ := listTrace_exists (rowLists_spec _ _) b.rc pb pd h2
  simp only [refIndex_self, Nat.add_zero] at hr
  exact ⟨r, pb, h1, hr⟩

theorem bycol_exists {b : Block K} (h : BlockOK b) (k rn cn pd : Nat) : ∃ r, ByColTrace b k rn cn pd r := by
  obtain ⟨pb, h1, h2, h3⟩ := addcol_expected h k rn cn
  obtain ⟨r, hr⟩ := listTrace_exists (colLists_spec (fun t => rn + refIndex b.rc t) _) b.cc pb pd h2
  simp only [refIndex_self, Nat.add_zero] at hr
  exact ⟨r, pb, h1, hr⟩

theorem byrow_visits {b : Block K} (h : BlockOK b) {k rn cn pd : Nat} {r : List (BEvent K)}
    (hr : ByRowTrace b k rn cn pd r) : (pres r).Perm (expectedEntries b k rn cn) ∧
      (posts r).Perm (expectedEntries b k rn cn) := by
  obtain ⟨pb, h1, h2⟩ := hr
  obtain ⟨pb', h1', h3, h4⟩ := addrow_expected h k rn cn
  rw [h1] at h1'; cases h1'
  obtain ⟨h5, h6⟩ := listTrace_visits (rowLists_spec _ _) h2 (by simp [refIndex_self]) h3
  exact ⟨Multiset.coe_eq_coe.1 (h5.trans h4), Multiset.coe_eq_coe.1 (h6.trans h4)⟩

theorem bycol_visits {b : Block K} (h : BlockOK b) {k rn cn pd : Nat} {r : List (BEvent K)}
    (hr : ByColTrace b k rn cn pd r) : (pres r).Perm (expectedEntries b k rn cn) ∧
      (posts r).Perm (expectedEntries b k rn cn) := by
  obtain ⟨pb, h1, h2⟩ := hr
  obtain ⟨pb', h1', h3, h4⟩ := addcol_expected h k rn cn
  rw [h1] at h1'; cases h1'
  obtain ⟨h5, h6⟩ := listTrace_visits (colLists_spec _ _) h2 (by simp [refIndex_self]) h3
  exact ⟨Multiset.coe_eq_coe.1 (h5.trans h4), Multiset.coe_eq_coe.1 (h6.trans h4)⟩

/-! all callbacks of a trace are different -/

theorem expectedEntries_nodup (b : Block K) (k rn cn : Nat) : (expectedEntries b k rn cn).Nodup := by
  apply List.Nodup.of_map (fun e => e.bname)
  unfold expectedEntries
  rw [List.map_map]
  show (((bnodes b).zipIdx k).map Prod.snd).Nodup
  rw [List.zipIdx_map_snd]
  exact List.nodup_range'

theorem trace_nodup {r : List (BEvent K)} {l : List (BEntry K)} (hl : l.Nodup) (h1 : (pres r).Perm l)
    (h2 : (posts r).Perm l) : r.Nodup := by
  have h1' := h1.nodup_iff.2 hl
  have h2' := h2.nodup_iff.2 hl
  clear h1 h2
  induction r with
  | nil => exact List.nodup_nil
  | cons e r ih =>
    cases e with
    | pre b x y z =>
      change ((⟨b, x, y, z⟩ : BEntry K) :: pres r).Nodup at h1'
      change (posts r).Nodup at h2'
      rw [List.nodup_cons] at h1' ⊢
      exact ⟨fun hm => h1'.1 (List.mem_filterMap.2 ⟨_, hm, rfl⟩), ih h1'.2 h2'⟩
    | post b x y z =>
      change ((⟨b, x, y, z⟩ : BEntry K) :: posts r).Nodup at h2'
      change (pres r).Nodup at h1'
      rw [List.nodup_cons] at h2' ⊢
      exact ⟨fun hm => h2'.1 (List.mem_filterMap.2 ⟨_, hm, rfl⟩), ih h1' h2'.2⟩

theorem nodup_pair {α : Type _} {r : List α} (h : r.Nodup) {a b : α} (h1 : [a, b].Sublist r)
    (h2 : [b, a].Sublist r) : False := by
  induction r with
  | nil => simp at h1
  | cons c r ih =>
    rw [List.nodup_cons] at h
    rcases List.sublist_cons_iff.1 h1 with h3 | ⟨l, e, h3⟩
    · rcases List.sublist_cons_iff.1 h2 with h4 | ⟨l', e', h4⟩
      · exact ih h.2 h3 h4
      · obtain ⟨rfl, rfl⟩ := List.cons.inj e'
        exact h.1 (h3.subset (by simp))
    · obtain ⟨rfl, rfl⟩ := List.cons.inj e
      rcases List.sublist_cons_iff.1 h2 with h4 | ⟨l', e', h4⟩
      · exact h.1 (h4.subset (by simp))
      · obtain ⟨rfl, rfl⟩ := List.cons.inj e'
        exact h.1 (List.singleton_sublist.1 h4)

theorem byrow_race {b : Block K} (h : BlockOK b) {k rn cn pd pd' : Nat} {r r' : List (BEvent K)}
    (hr : ByRowTrace b k rn cn pd r) (hr' : ByRowTrace b k rn cn pd' r') {x y : BEvent K}
    (h1 : [x, y].Sublist r) (h2 : [y, x].Sublist r') : ∀ i, ¬ (InC x.entry.b.rc i ∧ InC y.entry.b.rc i) := by
  obtain ⟨pb, a1, a2⟩ := hr
  obtain ⟨pb', a1', a2'⟩ := hr'
  rw [a1] at a1'; cases a1'
  obtain ⟨pb', a1', a3, a4⟩ := addrow_expected h k rn cn
  rw [a1] at a1'; cases a1'
  obtain ⟨r0, hr0⟩ := listTrace_seq a2
  have hv := byrow_visits h ⟨pb, a1, hr0⟩
  have hnd := trace_nodup (expectedEntries_nodup b k rn cn) hv.1 hv.2
  rcases listTrace_order (sel := Block.rc) (rowLists_spec _ _) row_in (fun _ _ h => h.rcons) a2
    (by simp [refIndex_self]) a3 hr0 h1 with b1 | b1
  · rcases listTrace_order (sel := Block.rc) (rowLists_spec _ _) row_in (fun _ _ h => h.rcons) a2'
      (by simp [refIndex_self]) a3 hr0 h2 with b2 | b2
    · exact (nodup_pair hnd b1 b2).elim
    · exact fun i hi => b2 i hi.symm
  · exact b1

theorem bycol_race {b : Block K} (h : BlockOK b) {k rn cn pd pd' : Nat} {r r' : List (BEvent K)}
    (hr : ByColTrace b k rn cn pd r) (hr' : ByColTrace b k rn cn pd' r') {x y : BEvent K}
    (h1 : [x, y].Sublist r) (h2 : [y, x].Sublist r') : ∀ i, ¬ (InC x.entry.b.cc i ∧ InC y.entry.b.cc i) := by
  obtain ⟨pb, a1, a2⟩ := hr
  obtain ⟨pb', a1', a2'⟩ := hr'
  rw [a1] at a1'; cases a1'
  obtain ⟨pb', a1', a3, a4⟩ := addcol_expected h k rn cn
  rw [a1] at a1'; cases a1'
  obtain ⟨r0, hr0⟩ := listTrace_seq a2
  have hv := bycol_visits h ⟨pb, a1, hr0⟩
  have hnd := trace_nodup (expectedEntries_nodup b k rn cn) hv.1 hv.2
  rcases listTrace_order (sel := Block.cc) (colLists_spec _ _) col_in (fun _ _ h => h.ccons) a2
    (by simp [refIndex_self]) a3 hr0 h1 with b1 | b1
  · rcases listTrace_order (sel := Block.cc) (colLists_spec _ _) col_in (fun _ _ h => h.ccons) a2'
      (by simp [refIndex_self]) a3 hr0 h2 with b2 | b2
    · exact (nodup_pair hnd b1 b2).elim
    · exact fun i hi => b2 i hi.symm
  · exact b1

theorem byrow_run {b : Block K} (h : BlockOK b) {S : Type _} {act : BEvent K → S → S}
    (hcomm : ∀ x y : BEvent K, (∀ i, ¬ (InC x.entry.b.rc i ∧ InC y.entry.b.rc i)) →
      ∀ s, act x (act y s) = act y (act x s)) {k rn cn pd pd' : Nat} {r r' : List (BEvent K)}
    (hr : ByRowTrace b k rn cn pd r) (hr' : ByRowTrace b k rn cn pd' r') (s : S) :
    runEvents act r s = runEvents act r' s := by
  obtain ⟨pb, a1, a2⟩ := hr
  obtain ⟨pb', a1', a2'⟩ := hr'
  rw [a1] at a1'; cases a1'
  obtain ⟨pb', a1', a3, a4⟩ := addrow_expected h k rn cn
  rw [a1] at a1'; cases a1'
  obtain ⟨r0, hr0⟩ := listTrace_seq a2
  rw [listTrace_run (sel := Block.rc) (rowLists_spec _ _) row_in (fun _ _ h => h.rcons) hcomm a2
      (by simp [refIndex_self]) a3 hr0,
    listTrace_run (sel := Block.rc) (rowLists_spec _ _) row_in (fun _ _ h => h.rcons) hcomm a2'
      (by simp [refIndex_self]) a3 hr0]

theorem bycol_run {b : Block K} (h : BlockOK b) {S : Type _} {act : BEvent K → S → S}
    (hcomm : ∀ x y : BEvent K, (∀ i, ¬ (InC x.entry.b.cc i ∧ InC y.entry.b.cc i)) →
      ∀ s, act x (act y s) = act y (act x s)) {k rn cn pd pd' : Nat} {r r' : List (BEvent K)}
    (hr : ByColTrace b k rn cn pd r) (hr' : ByColTrace b k rn cn pd' r') (s : S) :
    runEvents act r s = runEvents act r' s := by
  obtain ⟨pb, a1, a2⟩ := hr
  obtain ⟨pb', a1', a2'⟩ := hr'
  rw [a1] at a1'; cases a1'
  obtain ⟨pb', a1', a3, a4⟩ := addcol_expected h k rn cn
  rw [a1] at a1'; cases a1'
  obtain ⟨r0, hr0⟩ := listTrace_seq a2
  rw [listTrace_run (sel := Block.cc) (colLists_spec (fun t => rn + refIndex b.rc t) _) col_in (fun _ _ h => h.ccons) hcomm a2
      (by simp [refIndex_self]) a3 hr0,
    listTrace_run (sel := Block.cc) (colLists_spec (fun t => rn + refIndex b.rc t) _) col_in (fun _ _ h => h.ccons) hcomm a2'
      (by simp [refIndex_self]) a3 hr0]

end H2
