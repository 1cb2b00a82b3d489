import Verif.Proof.BlockName
import Mathlib.Algebra.Order.BigOperators.Group.Multiset
import Mathlib.Algebra.BigOperators.Group.Multiset.Basic
import Mathlib.Algebra.BigOperators.Pi

/-! The recursion shared by `iterate_rowlist` and `iterate_collist`. -/

set_option linter.unusedSectionVars false

namespace H2
open Spec Block
variable {K : Type _}

theorem pres_append (a b : List (BEvent K)) : pres (a ++ b) = pres a ++ pres b := List.filterMap_append
theorem posts_append (a b : List (BEvent K)) : posts (a ++ b) = posts a ++ posts b := List.filterMap_append

theorem pres_preEvents (pb : List (BEntry K)) : pres (Block.preEvents pb) = pb.reverse := by
  unfold pres Block.preEvents
  rw [List.filterMap_map]
  exact (List.filterMap_congr (g := some) (fun x _ => by cases x; rfl)).trans List.filterMap_some
theorem posts_postEvents (pb : List (BEntry K)) : posts (Block.postEvents pb) = pb := by
  unfold posts Block.postEvents
  rw [List.filterMap_map]
  exact (List.filterMap_congr (g := some) (fun x _ => by cases x; rfl)).trans List.filterMap_some
theorem posts_preEvents (pb : List (BEntry K)) : posts (Block.preEvents pb) = [] := by
  unfold posts Block.preEvents
  rw [List.filterMap_map, List.filterMap_eq_nil_iff]; intro x _; cases x; rfl
theorem pres_postEvents (pb : List (BEntry K)) : pres (Block.postEvents pb) = [] := by
  unfold pres Block.postEvents
  rw [List.filterMap_map, List.filterMap_eq_nil_iff]; intro x _; cases x; rfl

theorem pres_perm {a b : List (BEvent K)} (h : a.Perm b) : (pres a).Perm (pres b) := h.filterMap _
theorem posts_perm {a b : List (BEvent K)} (h : a.Perm b) : (posts a).Perm (posts b) := h.filterMap _

/-- the entry of an event -/
def BEvent.entry : BEvent K → BEntry K
  | .pre b x y z => ⟨b, x, y, z⟩
  | .post b x y z => ⟨b, x, y, z⟩

theorem mem_pres_or_posts {ev : BEvent K} {r : List (BEvent K)} (h : ev ∈ r) : ev.entry ∈ pres r ∨ ev.entry ∈ posts r := by
  cases ev with
  | pre b x y z => left; exact List.mem_filterMap.2 ⟨_, h, rfl⟩
  | post b x y z => right; exact List.mem_filterMap.2 ⟨_, h, rfl⟩

/-- all blocks for which the entries of a list are responsible -/
def ownL (own : BEntry K → Multiset (BEntry K)) (pb : List (BEntry K)) : Multiset (BEntry K) := (pb.map own).sum

theorem ownL_nil (own : BEntry K → Multiset (BEntry K)) : ownL own [] = 0 := rfl
theorem ownL_cons (own : BEntry K → Multiset (BEntry K)) (e : BEntry K) (pb : List (BEntry K)) :
    ownL own (e :: pb) = own e + ownL own pb := by simp [ownL]
theorem ownL_append (own : BEntry K → Multiset (BEntry K)) (a b : List (BEntry K)) :
    ownL own (a ++ b) = ownL own a + ownL own b := by simp [ownL]
theorem mem_ownL {own : BEntry K → Multiset (BEntry K)} {pb : List (BEntry K)} {x : BEntry K} :
    x ∈ ownL own pb ↔ ∃ e ∈ pb, x ∈ own e := by
  induction pb with
  | nil => simp [ownL]
  | cons e pb ih => rw [ownL_cons, Multiset.mem_add, ih]; simp

theorem ownL_singletons {own : BEntry K → Multiset (BEntry K)} {pb : List (BEntry K)}
    (h : ∀ e ∈ pb, own e = {e}) : ownL own pb = ↑pb := by
  induction pb with
  | nil => rfl
  | cons e pb ih =>
    rw [ownL_cons, h e List.mem_cons_self, ih (fun e he => h e (List.mem_cons_of_mem _ he))]; rfl

/-- what the two fill loops have in common: `OK t e` is the invariant of list members, `own e` the set of blocks they
are responsible for, `f` the correct numbering -/
structure ListSpec (lists : (t : CRef K) → Nat → List (BEntry K) → R (Lists K t.nsons))
    (f : CRef K → Nat) (OK : CRef K → BEntry K → Prop) (own : BEntry K → Multiset (BEntry K)) : Prop where
  naming : ∀ t e, OK t e → IsNaming f t
  desc : ∀ t e, OK t e → DescExact t.cl
  leaf : ∀ t e, OK t e → t.nsons = 0 → own e = {e}
  lists : ∀ t pb, (∀ e ∈ pb, OK t e) → 0 < t.nsons → Tot (lists t (f t) pb) fun pb1 =>
    (∀ i, ∀ e ∈ pb1 i, OK (t.son i) e) ∧ ↑pb + ∑ i, ownL own (pb1 i) = ownL own pb

section
variable {lists : (t : CRef K) → Nat → List (BEntry K) → R (Lists K t.nsons)} {f : CRef K → Nat}
  {OK : CRef K → BEntry K → Prop} {own : BEntry K → Multiset (BEntry K)}

theorem coe_flatten {α : Type _} {n : Nat} (tr : Fin n → List α) :
    ((List.ofFn tr).flatten : Multiset α) = ∑ i, (tr i : Multiset α) := by
  induction n with
  | zero => simp
  | succ n ih => rw [List.ofFn_succ, List.flatten_cons, Fin.sum_univ_succ, ← ih, Multiset.coe_add]

theorem pres_flatten {n : Nat} (tr : Fin n → List (BEvent K)) :
    pres (List.ofFn tr).flatten = (List.ofFn fun i => pres (tr i)).flatten := by
  induction n with
  | zero => simp [pres]
  | succ n ih => simp [List.ofFn_succ, pres_append, ih]
theorem posts_flatten {n : Nat} (tr : Fin n → List (BEvent K)) :
    posts (List.ofFn tr).flatten = (List.ofFn fun i => posts (tr i)).flatten := by
  induction n with
  | zero => simp [posts]
  | succ n ih => simp [List.ofFn_succ, posts_append, ih]

theorem listSpec_node (hs : ListSpec lists f OK own) {t : CRef K} {pb : List (BEntry K)} {pb1 : Lists K t.nsons}
    (h0 : 0 < t.nsons) (hok : ∀ e ∈ pb, OK t e) (h : lists t (f t) pb = .ok pb1) :
    (∀ i, ∀ e ∈ pb1 i, OK (t.son i) e) ∧ ↑pb + ∑ i, ownL own (pb1 i) = ownL own pb := by
  obtain ⟨x, hx, h2⟩ := hs.lists t pb hok h0
  rw [hx] at h
  cases h
  exact h2

/-- every block is visited exactly once -/
theorem listTrace_visits (hs : ListSpec lists f OK own) {t : CRef K} {name pd : Nat} {pb : List (BEntry K)}
    {r : List (BEvent K)} (h : ListTrace lists t name pb pd r) (hn : name = f t) (hok : ∀ e ∈ pb, OK t e) :
    (pres r : Multiset (BEntry K)) = ownL own pb ∧ (posts r : Multiset (BEntry K)) = ownL own pb := by
  have node : ∀ (t : CRef K) (e : BEntry K) (pb : List (BEntry K)) (pb1 : Lists K t.nsons)
      (tr : Fin t.nsons → List (BEvent K)) (r : List (BEvent K)), 0 < t.nsons → (∀ x ∈ e :: pb, OK t x) →
      lists t (f t) (e :: pb) = .ok pb1 → r.Perm (List.ofFn tr).flatten →
      (∀ i : Fin t.nsons, sonName t (f t) i = f (t.son i) → (∀ e ∈ pb1 i, OK (t.son i) e) →
        (pres (tr i) : Multiset (BEntry K)) = ownL own (pb1 i) ∧
        (posts (tr i) : Multiset (BEntry K)) = ownL own (pb1 i)) →
      (pres (Block.preEvents (e :: pb) ++ r ++ Block.postEvents (e :: pb)) : Multiset (BEntry K)) = ownL own (e :: pb) ∧
      (posts (Block.preEvents (e :: pb) ++ r ++ Block.postEvents (e :: pb)) : Multiset (BEntry K)) = ownL own (e :: pb) := by
    intro t e pb pb1 tr r h0 hok hl hp ih
    obtain ⟨h1, h2⟩ := listSpec_node hs h0 hok hl
    have hnm := fun i => (hs.naming t e (hok e List.mem_cons_self) t .refl i).symm
    have e1 := Multiset.coe_eq_coe.2 ((pres_perm hp))
    have e2 := Multiset.coe_eq_coe.2 ((posts_perm hp))
    rw [pres_flatten, coe_flatten] at e1
    rw [posts_flatten, coe_flatten] at e2
    rw [Finset.sum_congr rfl fun i _ => (ih i (hnm i) (h1 i)).1] at e1
    rw [Finset.sum_congr rfl fun i _ => (ih i (hnm i) (h1 i)).2] at e2
    constructor
    · rw [pres_append, pres_append, pres_preEvents, pres_postEvents, List.append_nil, ← h2, ← e1,
        ← Multiset.coe_add]
      congr 1
      exact Multiset.coe_eq_coe.2 (List.reverse_perm _)
    · rw [posts_append, posts_append, posts_preEvents, posts_postEvents, List.nil_append, ← h2, ← e2,
        ← Multiset.coe_add, add_comm]
  induction h with
  | quick => exact ⟨rfl, rfl⟩
  | leaf h =>
    rw [ownL_singletons fun e he => hs.leaf _ e (hok e he) h]
    constructor
    · rw [pres_append, pres_preEvents, pres_postEvents, List.append_nil]
      exact Multiset.coe_eq_coe.2 (List.reverse_perm _)
    · rw [posts_append, posts_preEvents, posts_postEvents, List.nil_append]
  | par h0 hd hl _ hsh ih => subst hn; exact node _ _ _ _ _ _ h0 hok hl (shuffle_perm hsh) ih
  | seq h0 hd hl _ ih => subst hn; exact node _ _ _ _ _ _ h0 hok hl (.refl _) ih

/-- no assertion fails: there is a trace -/
theorem listTrace_exists (hs : ListSpec lists f OK own) (t : CRef K) : ∀ (pb : List (BEntry K)) (pd : Nat),
    (∀ e ∈ pb, OK t e) → ∃ r, ListTrace lists t (f t) pb pd r := by
  intro pb pd hok
  cases pb with
  | nil => exact ⟨[], .quick⟩
  | cons e pb =>
    by_cases h0 : t.nsons = 0
    · exact ⟨_, .leaf h0⟩
    · have h0 : 0 < t.nsons := Nat.pos_of_ne_zero h0
      obtain ⟨pb1, hl, h1, h2⟩ := hs.lists t (e :: pb) hok h0
      have hnm := fun i => (hs.naming t e (hok e List.mem_cons_self) t .refl i)
      have hd := sonName_last t (f t) (hs.desc t e (hok e List.mem_cons_self))
      cases pd with
      | zero =>
        have ih := fun i => listTrace_exists hs (t.son i) (pb1 i) 0 (h1 i)
        choose tr htr using ih
        exact ⟨_, .seq h0 hd hl (fun i => hnm i ▸ htr i)⟩
      | succ pd =>
        have ih := fun i => listTrace_exists hs (t.son i) (pb1 i) pd (h1 i)
        choose tr htr using ih
        exact ⟨_, .par h0 hd hl (fun i => hnm i ▸ htr i) (shuffle_flatten _)⟩
termination_by sizeOf t.cl
decreasing_by all_goals exact CRef.sizeOf_son t i

/-! ### Race freedom -/

theorem listTrace_seq_unique {t : CRef K} {name pd : Nat} {pb : List (BEntry K)} {r r' : List (BEvent K)}
    (h : ListTrace lists t name pb pd r) (hpd : pd = 0) (h' : ListTrace lists t name pb 0 r') : r = r' := by
  induction h generalizing r' with
  | quick => cases h'; rfl
  | leaf h0 =>
    cases h' with
    | leaf => rfl
    | seq h1 => omega
  | par => omega
  | seq h0 hd hl hi ih =>
    cases h' with
    | leaf h1 => omega
    | seq h1 hd' hl' hi' =>
      rw [hl] at hl'
      cases hl'
      have : ∀ i, _ := fun i => ih i rfl (hi' i)
      have e := funext this
      rw [e]

/-- the trace of the sequential iterator -/
theorem listTrace_seq {t : CRef K} {name pd : Nat} {pb : List (BEntry K)}
    {r : List (BEvent K)} (h : ListTrace lists t name pb pd r) :
    ∃ r0, ListTrace lists t name pb 0 r0 := by
  induction h with
  | quick => exact ⟨_, .quick⟩
  | leaf h => exact ⟨_, .leaf h⟩
  | par h0 hd hl _ hsh ih => choose tr htr using ih; exact ⟨_, .seq h0 hd hl htr⟩
  | seq h0 hd hl _ ih => choose tr htr using ih; exact ⟨_, .seq h0 hd hl htr⟩

/-- `a` is followed by `b` -/
theorem pair_sublist_append {α : Type _} {a b : α} {x y : List α} :
    [a, b].Sublist (x ++ y) ↔ [a, b].Sublist x ∨ (a ∈ x ∧ b ∈ y) ∨ [a, b].Sublist y := by
  constructor
  · intro h
    obtain ⟨l1, l2, e, h1, h2⟩ := List.sublist_append_iff.1 h
    match l1, l2, e with
    | [], l2, e => exact .inr (.inr (by simpa using e ▸ h2))
    | [c], [d], e =>
      simp only [List.cons_append, List.nil_append, List.cons.injEq, and_true] at e
      obtain ⟨rfl, rfl⟩ := e
      exact .inr (.inl ⟨List.singleton_sublist.1 h1, List.singleton_sublist.1 h2⟩)
    | [c, d], [], e =>
      simp only [List.append_nil] at e
      exact .inl (e ▸ h1)
    | [c], d :: d' :: l, e => simp at e
    | [c], [], e => simp at e
    | [c, d], d' :: l, e => simp at e
    | c :: d :: g :: l, l', e => simp at e
  · rintro (h | ⟨h1, h2⟩ | h)
    · exact h.trans (List.sublist_append_left _ _)
    · exact (List.singleton_sublist.2 h1).append (List.singleton_sublist.2 h2)
    · exact h.trans (List.sublist_append_right _ _)

theorem pair_shuffle {α : Type _} {ls : List (List α)} {r : List α} (h : Shuffle ls r) {a b : α}
    (hab : [a, b].Sublist r) : ∃ (i : Fin ls.length) (j : Fin ls.length), a ∈ ls[i] ∧ b ∈ ls[j] ∧
      (i = j → [a, b].Sublist ls[i]) := by
  induction h with
  | done => simp at hab
  | @step pre post c l r h ih =>
    have len : (pre ++ (c :: l) :: post).length = (pre ++ l :: post).length := by simp
    have sub : ∀ i : Fin (pre ++ l :: post).length, (pre ++ l :: post)[i].Sublist
        ((pre ++ (c :: l) :: post)[i.1]'(by rw [len]; exact i.2)) := by
      intro i
      rcases Nat.lt_trichotomy i.1 pre.length with h1 | h1 | h1
      · simp [List.getElem_append_left h1]
      · simp [h1]
      · simp [List.getElem_append_right (le_of_lt h1), List.getElem_cons, Nat.sub_eq_zero_iff_le, Nat.not_le.2 h1]
    rcases List.sublist_cons_iff.1 hab with h1 | ⟨l', e, h1⟩
    · obtain ⟨i, j, h2, h3, h4⟩ := ih h1
      refine ⟨i.cast len.symm, j.cast len.symm, (sub i).subset h2, (sub j).subset h3, fun e => ?_⟩
      have e' : i = j := by simpa using e
      exact (h4 e').trans (sub i)
    · obtain ⟨rfl, rfl⟩ := List.cons.inj e
      have hb : b ∈ r := List.singleton_sublist.1 h1
      have hb' := (shuffle_perm h).subset hb
      obtain ⟨x, hx, hbx⟩ := List.mem_flatten.1 hb'
      obtain ⟨k, hk, rfl⟩ := List.getElem_of_mem hx
      refine ⟨⟨pre.length, by simp⟩, ⟨k, by rw [len]; exact hk⟩, by simp, ?_, fun e => ?_⟩
      · exact (sub ⟨k, hk⟩).subset hbx
      · have e' : pre.length = k := by simpa using e
        subst e'
        have : b ∈ l := by simpa using hbx
        simpa using this

theorem pair_ofFn {α : Type _} {n : Nat} {tr : Fin n → List α} {a b : α} {i : Fin n} (h : [a, b].Sublist (tr i)) :
    [a, b].Sublist (List.ofFn tr).flatten :=
  h.trans (List.sublist_flatten_of_mem (List.mem_ofFn.2 ⟨i, rfl⟩))

/-- callbacks in an unexpected order belong to clusters without common indices -/
theorem listTrace_order {sel : Block K → CRef K} (hs : ListSpec lists f OK own)
    (hin : ∀ t e, OK t e → ∀ x ∈ own e, ∀ r, InC (sel x.b) r → InC t r)
    (hcons : ∀ t e, OK t e → Consistent t.cl)
    {t : CRef K} {name pd : Nat} {pb : List (BEntry K)} {r r0 : List (BEvent K)}
    (h : ListTrace lists t name pb pd r) (hn : name = f t) (hok : ∀ e ∈ pb, OK t e)
    (h' : ListTrace lists t name pb 0 r0) {a b : BEvent K} (hab : [a, b].Sublist r) :
    [a, b].Sublist r0 ∨ ∀ k, ¬ (InC (sel a.entry.b) k ∧ InC (sel b.entry.b) k) := by
  induction h generalizing r0 with
  | quick => simp at hab
  | leaf h0 =>
    cases h' with
    | leaf => exact .inl hab
    | seq h1 => omega
  | seq h0 hd hl hi ih =>
    cases h' with
    | leaf h1 => omega
    | seq h1 hd' hl' hi' =>
      rw [hl] at hl'
      cases hl'
      have e := funext fun i => listTrace_seq_unique (hi i) rfl (hi' i)
      rw [← e]
      exact .inl hab
  | @par t name pd e pb pb1 tr r h0 hd hl hi hsh ih =>
    cases h' with
    | leaf h1 => omega
    | @seq _ _ _ _ pb1' tr' h1 hd' hl' hi' =>
      rw [hl] at hl'
      cases hl'
      subst hn
      obtain ⟨hok1, _⟩ := listSpec_node hs h0 hok hl
      have hOK := hok e List.mem_cons_self
      have hnm := fun i => (hs.naming t e hOK t .refl i).symm
      -- the traces of the sons have the same events
      have hv := fun i => listTrace_visits hs (hi i) (hnm i) (hok1 i)
      have hv' := fun i => listTrace_visits hs (hi' i) (hnm i) (hok1 i)
      have hmem : ∀ i ev, ev ∈ tr i → ev ∈ tr' i := by
        intro i ev hev
        have e1 : (pres (tr i)).Perm (pres (tr' i)) := Multiset.coe_eq_coe.1 ((hv i).1.trans (hv' i).1.symm)
        have e2 : (posts (tr i)).Perm (posts (tr' i)) := Multiset.coe_eq_coe.1 ((hv i).2.trans (hv' i).2.symm)
        cases ev with
        | pre b x y z =>
          have h3 : (⟨b, x, y, z⟩ : BEntry K) ∈ pres (tr' i) :=
            e1.subset (List.mem_filterMap.2 ⟨_, hev, rfl⟩)
          obtain ⟨ev', h4, h5⟩ := List.mem_filterMap.1 h3
          cases ev' with
          | pre => simp only [Option.some.injEq, BEntry.mk.injEq] at h5; obtain ⟨rfl, rfl, rfl, rfl⟩ := h5; exact h4
          | post => simp at h5
        | post b x y z =>
          have h3 : (⟨b, x, y, z⟩ : BEntry K) ∈ posts (tr' i) :=
            e2.subset (List.mem_filterMap.2 ⟨_, hev, rfl⟩)
          obtain ⟨ev', h4, h5⟩ := List.mem_filterMap.1 h3
          cases ev' with
          | post => simp only [Option.some.injEq, BEntry.mk.injEq] at h5; obtain ⟨rfl, rfl, rfl, rfl⟩ := h5; exact h4
          | pre => simp at h5
      have hmem' : ∀ ev, ev ∈ r → ev ∈ (List.ofFn tr').flatten := by
        intro ev hev
        have := (shuffle_perm hsh).subset hev
        obtain ⟨x, hx, h3⟩ := List.mem_flatten.1 this
        obtain ⟨i, rfl⟩ := List.mem_ofFn.1 hx
        exact List.mem_flatten.2 ⟨_, List.mem_ofFn.2 ⟨i, rfl⟩, hmem i ev h3⟩
      rcases pair_sublist_append.1 hab with h2 | ⟨h2, h3⟩ | h2
      · rcases pair_sublist_append.1 h2 with h4 | ⟨h4, h5⟩ | h4
        · exact .inl (pair_sublist_append.2 (.inl (pair_sublist_append.2 (.inl h4))))
        · exact .inl (pair_sublist_append.2 (.inl (pair_sublist_append.2 (.inr (.inl ⟨h4, hmem' b h5⟩)))))
        · -- both events come from the sons
          obtain ⟨i, j, h5, h6, h7⟩ := pair_shuffle hsh h4
          have li : i.1 < t.nsons := by have := i.2; simpa using this
          have lj : j.1 < t.nsons := by have := j.2; simpa using this
          have h5 : a ∈ tr ⟨i.1, li⟩ := by simpa using h5
          have h6 : b ∈ tr ⟨j.1, lj⟩ := by simpa using h6
          by_cases hij : i = j
          · have h8 : [a, b].Sublist (tr ⟨i.1, li⟩) := by simpa using h7 hij
            rcases ih ⟨i.1, li⟩ (hnm _) (hok1 _) (hi' _) h8 with h9 | h9
            · exact .inl (pair_sublist_append.2 (.inl (pair_sublist_append.2 (.inr (.inr (pair_ofFn h9))))))
            · exact .inr h9
          · right
            rintro k ⟨k1, k2⟩
            have key : ∀ (i : Fin t.nsons) (ev : BEvent K), ev ∈ tr i → InC (sel ev.entry.b) k → InC (t.son i) k := by
              intro i ev hev hk
              have h8 : ev.entry ∈ ownL own (pb1 i) := by
                rcases mem_pres_or_posts hev with h9 | h9
                · rw [← (hv i).1]; exact h9
                · rw [← (hv i).2]; exact h9
              obtain ⟨e', h9, h10⟩ := mem_ownL.1 h8
              exact hin _ e' (hok1 i e' h9) _ h10 k hk
            have k3 := key _ _ h5 k1
            have k4 := key _ _ h6 k2
            have hc := hcons t e hOK
            obtain ⟨i0, _, hu⟩ := inC_unique hc h0 (inC_son hc _ k3)
            have := (hu _ k3).trans (hu _ k4).symm
            apply hij
            apply Fin.ext
            simpa using this
      · -- `a` before the second callback list
        refine .inl (pair_sublist_append.2 (.inr (.inl ⟨?_, h3⟩)))
        rcases List.mem_append.1 h2 with h4 | h4
        · exact List.mem_append_left _ h4
        · exact List.mem_append_right _ (hmem' a h4)
      · exact .inl (pair_sublist_append.2 (.inr (.inr h2)))

/-- executing the callbacks of a trace one after the other -/
def runEvents {S : Type _} (act : BEvent K → S → S) (r : List (BEvent K)) (s : S) : S := r.foldl (fun s e => act e s) s

theorem runEvents_append {S : Type _} (act : BEvent K → S → S) (a b : List (BEvent K)) (s : S) :
    runEvents act (a ++ b) s = runEvents act b (runEvents act a s) := List.foldl_append

theorem runEvents_comm {S : Type _} {act : BEvent K → S → S} (a : BEvent K) (l : List (BEvent K))
    (h : ∀ b ∈ l, ∀ s, act a (act b s) = act b (act a s)) (s : S) :
    runEvents act l (act a s) = act a (runEvents act l s) := by
  induction l generalizing s with
  | nil => rfl
  | cons b l ih =>
    show runEvents act l (act b (act a s)) = act a (runEvents act l (act b s))
    rw [← h b List.mem_cons_self, ih (fun b hb => h b (List.mem_cons_of_mem _ hb))]

theorem runEvents_shuffle {S : Type _} {act : BEvent K → S → S} {ls : List (List (BEvent K))} {r : List (BEvent K)}
    (h : Shuffle ls r)
    (hc : ls.Pairwise fun x y => ∀ a ∈ x, ∀ b ∈ y, ∀ s, act a (act b s) = act b (act a s)) (s : S) :
    runEvents act r s = runEvents act ls.flatten s := by
  induction h generalizing s with
  | done h => rw [List.flatten_eq_nil_iff.2 h]
  | @step pre post a l r h ih =>
    have h1 := List.pairwise_append.1 hc
    have h2 := List.pairwise_cons.1 h1.2.1
    have hc' : (pre ++ l :: post).Pairwise fun x y => ∀ a ∈ x, ∀ b ∈ y, ∀ s, act a (act b s) = act b (act a s) := by
      refine List.pairwise_append.2 ⟨h1.1, List.pairwise_cons.2 ⟨fun y hy b hb => h2.1 y hy b (List.mem_cons_of_mem _ hb), h2.2⟩, ?_⟩
      intro x hx y hy
      rcases List.mem_cons.1 hy with rfl | hy
      · exact fun c hc b hb => h1.2.2 x hx _ List.mem_cons_self c hc b (List.mem_cons_of_mem _ hb)
      · exact h1.2.2 x hx y (List.mem_cons_of_mem _ hy)
    show runEvents act r (act a s) = _
    rw [ih hc', List.flatten_append, List.flatten_append, List.flatten_cons, List.flatten_cons, List.cons_append,
      runEvents_append, runEvents_append, runEvents_comm a pre.flatten]
    · rw [runEvents_append act pre.flatten]
      show _ = runEvents act (l ++ post.flatten) (act a _)
      rw [runEvents_append]
    · intro b hb s
      obtain ⟨x, hx, hb⟩ := List.mem_flatten.1 hb
      exact (h1.2.2 x hx _ List.mem_cons_self b hb a List.mem_cons_self s).symm

/-- callbacks that commute if their clusters are disjoint give the same result for all schedules -/
theorem listTrace_run {S : Type _} {act : BEvent K → S → S} {sel : Block K → CRef K} (hs : ListSpec lists f OK own)
    (hin : ∀ t e, OK t e → ∀ x ∈ own e, ∀ r, InC (sel x.b) r → InC t r)
    (hcons : ∀ t e, OK t e → Consistent t.cl)
    (hcomm : ∀ a b : BEvent K, (∀ k, ¬ (InC (sel a.entry.b) k ∧ InC (sel b.entry.b) k)) →
      ∀ s, act a (act b s) = act b (act a s))
    {t : CRef K} {name pd : Nat} {pb : List (BEntry K)} {r r0 : List (BEvent K)}
    (h : ListTrace lists t name pb pd r) (hn : name = f t) (hok : ∀ e ∈ pb, OK t e)
    (h' : ListTrace lists t name pb 0 r0) (s : S) : runEvents act r s = runEvents act r0 s := by
  induction h generalizing r0 s with
  | quick => cases h'; rfl
  | leaf h0 =>
    cases h' with
    | leaf => rfl
    | seq h1 => omega
  | seq h0 hd hl hi ih =>
    rw [listTrace_seq_unique (.seq h0 hd hl hi) rfl h']
  | @par t name pd e pb pb1 tr r h0 hd hl hi hsh ih =>
    cases h' with
    | leaf h1 => omega
    | @seq _ _ _ _ pb1' tr' h1 hd' hl' hi' =>
      rw [hl] at hl'
      cases hl'
      subst hn
      obtain ⟨hok1, _⟩ := listSpec_node hs h0 hok hl
      have hOK := hok e List.mem_cons_self
      have hnm := fun i => (hs.naming t e hOK t .refl i).symm
      have hv := fun i => listTrace_visits hs (hi i) (hnm i) (hok1 i)
      have key : ∀ (i : Fin t.nsons) (ev : BEvent K), ev ∈ tr i → ∀ k, InC (sel ev.entry.b) k → InC (t.son i) k := by
        intro i ev hev k hk
        have h8 : ev.entry ∈ ownL own (pb1 i) := by
          rcases mem_pres_or_posts hev with h9 | h9
          · rw [← (hv i).1]; exact h9
          · rw [← (hv i).2]; exact h9
        obtain ⟨e', h9, h10⟩ := mem_ownL.1 h8
        exact hin _ e' (hok1 i e' h9) _ h10 k hk
      have hc := hcons t e hOK
      have hpw : (List.ofFn tr).Pairwise fun x y => ∀ a ∈ x, ∀ b ∈ y, ∀ s, act a (act b s) = act b (act a s) := by
        rw [List.pairwise_ofFn]
        intro i j hij a ha b hb
        apply hcomm
        rintro k ⟨k1, k2⟩
        have k3 := key _ _ ha k k1
        have k4 := key _ _ hb k k2
        obtain ⟨i0, _, hu⟩ := inC_unique hc h0 (inC_son hc _ k3)
        have := (hu _ k3).trans (hu _ k4).symm
        exact absurd this (Fin.ne_of_lt hij)
      have hfl : ∀ (n : Nat) (x y : Fin n → List (BEvent K)),
          (∀ i s, runEvents act (x i) s = runEvents act (y i) s) → ∀ s,
          runEvents act (List.ofFn x).flatten s = runEvents act (List.ofFn y).flatten s := by
        intro n
        induction n with
        | zero => intro x y _ s; simp
        | succ n ihn =>
          intro x y hxy s
          rw [List.ofFn_succ, List.ofFn_succ, List.flatten_cons, List.flatten_cons, runEvents_append,
            runEvents_append, hxy 0, ihn _ _ (fun i => hxy i.succ)]
      simp only [runEvents_append]
      rw [runEvents_shuffle hsh hpw, hfl _ _ _ (fun i s => ih i (hnm i) (hok1 i) (hi' i) s)]

end
end H2
