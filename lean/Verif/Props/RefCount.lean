import Verif.Proof.RefCount5

/-! C35–C37: reference counting and the lists of uniform matrices. -/

set_option linter.unusedSectionVars false

namespace H2.Props
open RefC

/-! ### C35 -/

/-- C35.  In every state that clients following the rules can reach, every further operation they may perform is executed
without touching a deleted object and without a violated assertion. -/
theorem C35_safe {V : Nat} {st : St} (hr : Reach V st) {op : Op} (hl : Legal st op) : ∃ st', step st op = .ok st' := by
  obtain ⟨st', h, _⟩ := step_ok (reach_inv hr) hl
  exact ⟨st', h⟩

/-- C35.  The counter of every object is the number of references to it. -/
theorem C35_counts {V : Nat} {st : St} (hr : Reach V st) {p : Nat} {o : Obj} (ho : st.h.obj p = some o) :
    o.refs = refCount st p := by
  obtain ⟨T, I⟩ := reach_inv hr
  exact I.refs p o ho

/-- C35.  No pointer dangles: every referenced object exists, and every uniform matrix of an H2-matrix exists. -/
theorem C35_no_dangling {V : Nat} {st : St} (hr : Reach V st) :
    (∀ p, 0 < refCount st p → Live st p) ∧ (∀ q v, ownedOf st.h q = some v → (st.h.uni v).isSome) ∧
    (∀ v, st.held v = true → (st.h.uni v).isSome) := by
  obtain ⟨T, I⟩ := reach_inv hr
  refine ⟨fun p hp => ?_, fun q v hv => ?_, fun v hv => ?_⟩
  · obtain ⟨o, ho, _⟩ := I.live (p := p) hp
    unfold Live; rw [ho]; rfl
  · have hq : q < st.N := by
      by_contra hn
      have := (I.bnd q (by omega)).1
      unfold ownedOf at hv; rw [this] at hv; cases hv
    have : 0 < cU st.N st.h Ex.none v := by
      refine lt_of_lt_of_le ?_ (Finset.single_le_sum (f := fun q => if U st.h Ex.none q = some v then 1 else 0)
        (fun _ _ => Nat.zero_le _) (Finset.mem_range.mpr hq))
      have : U st.h Ex.none q = some v := hv
      simp [this]
    obtain ⟨u, hu⟩ := I.liveU (v := v) (by omega)
    rw [hu]; rfl
  · obtain ⟨u, hu⟩ := I.liveU (v := v) (by simp [eH, hv])
    rw [hu]; rfl

/-- C35.  An operation deletes exactly the objects whose last reference disappears, and the object it is told to delete. -/
theorem C35_deleted_iff {V : Nat} {st st' : St} (hr : Reach V st) {op : Op} (hl : Legal st op) (hs : step st op = .ok st')
    {p : Nat} (hp : Live st p) : ¬ Live st' p ↔ op = .del p ∨ (0 < refCount st p ∧ refCount st' p = 0) := by
  obtain ⟨st2, h1, h2, h3, _⟩ := step_ok (reach_inv hr) hl
  rw [hs] at h1
  obtain rfl : st2 = st' := (Except.ok.inj h1).symm
  obtain ⟨o, ho⟩ := Option.isSome_iff_exists.mp hp
  have hc := C35_counts hr ho
  obtain ⟨T', I'⟩ := h2
  constructor
  · intro hd
    by_cases e : op = .del p
    · exact .inl e
    · have hn : st2.h.obj p = none := by simpa [Live] using hd
      refine .inr ⟨?_, I'.dead p hn⟩
      by_contra h0
      obtain ⟨o', ho'⟩ := h3.fl p o ho (by omega) e
      rw [hn] at ho'; cases ho'
  · rintro (e | ⟨e1, e2⟩) hlive
    · have := h3.gone p e
      rw [Live, this] at hlive; cases hlive
    · obtain ⟨o', ho'⟩ := Option.isSome_iff_exists.mp hlive
      have := I'.refs p o' ho'
      rw [refCount_eq] at e2
      have := h3.z p o o' ho ho' (by omega)
      omega

theorem parent_of_pos {N : Nat} {T : Nat → Bool} {h : Heap} {ext eU : Nat → Nat} (I : Inv N T h Ex.none ext eU) {p : Nat}
    (hp : 0 < cF N h Ex.none p + cB N h Ex.none p) :
    (∃ q, some p ∈ fields h q) ∨ ∃ s v, basisOf h s v = some p := by
  by_contra hn
  push Not at hn
  have h1 : cF N h Ex.none p = 0 := Finset.sum_eq_zero fun q _ => List.count_eq_zero.mpr (hn.1 q)
  have h2 : cB N h Ex.none p = 0 := Finset.sum_eq_zero fun v _ => by
    have : ∀ s, B h Ex.none s v ≠ some p := fun s => hn.2 s v
    unfold tB
    rw [if_neg (this false), if_neg (this true), Nat.add_zero]
  omega

/-- C35.  When the client holds nothing any more (no reference, no uniform matrix, no object it never referenced) and the
pointers between objects form no cycle, everything has been deleted. -/
theorem C35_no_leak {V : Nat} {st : St} (hr : Reach V st) (hv : ∀ x < st.V, st.vars x = none) (hh : ∀ v, st.held v = false)
    (hf : ∀ p, ¬ Floating st p) (rank : Nat → Nat) (hrank : ∀ a b, some b ∈ fields st.h a → rank b < rank a) :
    (∀ p, st.h.obj p = none) ∧ ∀ v, st.h.uni v = none := by
  obtain ⟨T, I⟩ := reach_inv hr
  have hext : ∀ p, extV st.V st.vars p = 0 := fun p => Finset.sum_eq_zero fun x hx => by
    rw [hv x (Finset.mem_range.mp hx)]; simp
  -- a measure that decreases along all pointers
  let M := ∑ q ∈ Finset.range st.N, rank q
  let m : Nat → Nat := fun q => rank q + if T q then 0 else M + 1
  have hM : ∀ q o, st.h.obj q = some o → rank q ≤ M := fun q o ho =>
    Finset.single_le_sum (f := rank) (fun _ _ => Nat.zero_le _) (Finset.mem_range.mpr (I.lt ho))
  have owner : ∀ v u, st.h.uni v = some u → ∃ q o, st.h.obj q = some o ∧ o.u = some v := by
    intro v u hu
    have h1 := I.uni v
    rw [hu] at h1
    simp only [eH, hh v] at h1
    by_contra hn
    push Not at hn
    have : cU st.N st.h Ex.none v = 0 := Finset.sum_eq_zero fun q _ => by
      have : U st.h Ex.none q ≠ some v := by
        intro e
        have e : ownedOf st.h q = some v := e
        cases hq : st.h.obj q with
        | none => unfold ownedOf at e; rw [hq] at e; cases e
        | some o => rw [ownedOf_some hq] at e; exact hn q o hq e
      rw [if_neg this]
    rw [this] at h1; simp at h1
  have parent : ∀ p o, st.h.obj p = some o → ∃ q oq, st.h.obj q = some oq ∧ m p < m q := by
    intro p o ho
    have h0 : o.refs ≠ 0 := fun e => hf p ⟨o, ho, e⟩
    have h1 := I.refs p o ho
    rw [hext] at h1
    rcases parent_of_pos I (p := p) (by omega) with ⟨q, hq⟩ | ⟨s, v, hb⟩
    · obtain ⟨oq, hoq⟩ := fields_live hq
      refine ⟨q, oq, hoq, ?_⟩
      have := hrank q p hq
      simp only [m]
      by_cases e : T q = true
      · rw [I.tyF q p e hq, e]; simpa using this
      · simp only [e]
        split <;> simp <;> omega
    · cases hu : st.h.uni v with
      | none => unfold basisOf at hb; rw [hu] at hb; cases hb
      | some u =>
        obtain ⟨q, oq, hoq, hqv⟩ := owner v u hu
        refine ⟨q, oq, hoq, ?_⟩
        have tp : T p = true := I.tyB v s p hb
        have tq : T q ≠ true := fun e => by rw [I.tyU q oq hoq e] at hqv; cases hqv
        have := hM p o ho
        simp only [m]
        simp only [tp, tq, if_true]
        simp only [Bool.false_eq_true, if_false]
        omega
  have bound : ∀ p o, st.h.obj p = some o → m p ≤ 2 * M + 1 := fun p o ho => by
    have := hM p o ho
    simp only [m]; split <;> omega
  have none : ∀ k p o, st.h.obj p = some o → 2 * M + 1 < m p + k → False := by
    intro k
    induction k with
    | zero => intro p o ho hk; have := bound p o ho; omega
    | succ k ih =>
      intro p o ho hk
      obtain ⟨q, oq, hoq, hlt⟩ := parent p o ho
      exact ih q oq hoq (by omega)
  have h1 : ∀ p, st.h.obj p = Option.none := fun p => by
    cases ho : st.h.obj p with
    | none => rfl
    | some o => exact (none (2 * M + 2) p o ho (by omega)).elim
  refine ⟨h1, fun v => ?_⟩
  cases hu : st.h.uni v with
  | none => rfl
  | some u =>
    obtain ⟨q, oq, hoq, _⟩ := owner v u hu
    rw [h1 q] at hoq; cases hoq

/-- C35, why the rule "the client can reach the object without the pointer that is overwritten" is needed: assigning to a
variable the object of which it holds the only reference is a use after free. -/
theorem C35_self_assignment {V : Nat} {st : St} (hr : Reach V st) {x p : Nat} (hx : x < st.V) (hp : st.vars x = some p)
    (h1 : refCount st p = 1) : step st (.ref x (some p)) = .error .ub := by
  obtain ⟨T, I⟩ := reach_inv hr
  have I0 : Inv st.N T st.h Ex.none (ado (extV st.V (upd st.vars x none)) (st.vars x)) (eH st.held) := by
    rw [← extV_upd hx, upd_id]; exact I
  obtain ⟨h', e1, J1, J2⟩ := unrefOpt_ok I0 (fun _ _ => rfl) (prot_none _ _)
  obtain ⟨o, ho, hpos, _⟩ := I.live (p := p) (by rw [refCount_eq] at h1; omega)
  have hrefs := I.refs p o ho
  rw [refCount_eq] at h1
  have hex : extV st.V st.vars p = extV st.V (upd st.vars x none) p + 1 := by
    have := congrFun (extV_upd (vars := st.vars) hx (st.vars x)) p
    rw [upd_id] at this
    rw [this, hp]; simp [ado]
  have hgone : h'.obj p = none := by
    cases ho' : h'.obj p with
    | none => rfl
    | some o' =>
      have hc := J1.refs p o' ho'
      have c1 : cF st.N h' Ex.none p = 0 := by
        refine Finset.sum_eq_zero fun q hq => List.count_eq_zero.mpr fun hm => ?_
        obtain ⟨oq, hoq⟩ := fields_live (h := h') (a := q) hm
        obtain ⟨oq0, h3, h4, h5, _⟩ := J2.obj q oq hoq
        have hm2 : some p ∈ fields st.h q := by
          have hm : some p ∈ fields h' q := hm
          rw [fields_some hoq, h4, h5, ← fields_some h3] at hm; exact hm
        have := cF_pos (X := Ex.none) (I.lt h3) rfl rfl hm2
        omega
      have c2 : cB st.N h' Ex.none p = 0 := by
        refine Finset.sum_eq_zero fun v hv => ?_
        have : ∀ s, B h' Ex.none s v ≠ some p := by
          intro s hb
          have hb : basisOf h' s v = some p := hb
          cases hu : h'.uni v with
          | none => unfold basisOf at hb; rw [hu] at hb; cases hb
          | some u =>
            obtain ⟨u0, h3, h4⟩ := J2.uni v u hu
            have hb2 : B st.h Ex.none s v = some p := by
              show basisOf st.h s v = some p
              rw [basisOf_some h3, ← h4, ← basisOf_some hu]; exact hb
            have := cB_pos (I.ltU h3) hb2
            omega
        unfold tB
        rw [if_neg (this false), if_neg (this true), Nat.add_zero]
      have hz : o'.refs = 0 := by omega
      obtain ⟨o2, h3, _, _, _, _, _, h4⟩ := J2.obj p o' ho'
      rw [ho] at h3; cases h3
      have := h4 hz
      omega
  simp only [step]
  rw [e1, ok_bind]
  simp only [incref, Heap.getObj, hgone]
  rfl

/-! ### C36 -/

/-- C36.  In every reachable state the row list (`s = false`) and the column list (`s = true`) of every cluster basis contain
exactly the uniform matrices that use it as row basis resp. column basis, each once, and are correctly linked forward
and backward. -/
theorem C36_lists {V : Nat} {st : St} (hr : Reach V st) {p : Nat} {o : Obj} (ho : st.h.obj p = some o) (s : Bool) :
    ∃ L, Linked st.h s none L (o.list s) ∧ L.Nodup ∧ ∀ v, v ∈ L ↔ basisOf st.h s v = some p := by
  obtain ⟨T, I⟩ := reach_inv hr
  exact I.lists p o ho s

/-- C36.  A uniform matrix always has a row basis and a column basis, which are cluster bases that exist. -/
theorem C36_bases {V : Nat} {st : St} (hr : Reach V st) {v : Nat} {u : Unif} (hu : st.h.uni v = some u) (s : Bool) :
    ∃ p o, u.basis s = some p ∧ st.h.obj p = some o ∧ o.bas = true := by
  obtain ⟨T, I⟩ := reach_inv hr
  cases hb : u.basis s with
  | none => exact absurd hb (I.att v u s hu rfl)
  | some p =>
    have hB : B st.h Ex.none s v = some p := by
      show basisOf st.h s v = some p
      rw [basisOf_some hu, hb]
    obtain ⟨o, ho, _⟩ := I.basis_live hB
    exact ⟨p, o, rfl, ho, by rw [I.ty p o ho, I.tyB v s p hB]⟩

/-- C36.  The operations register the uniform matrix with the bases they are called with. -/
theorem C36_registered {V : Nat} {st st' : St} (hr : Reach V st) {op : Op} (hl : Legal st op) (hs : step st op = .ok st') :
    (∀ v rb cb, op = .newUniform v rb cb → basisOf st'.h false v = some rb ∧ basisOf st'.h true v = some cb) ∧
    (∀ p v rb cb, op = .newUniformH2 p v rb cb →
      ownedOf st'.h p = some v ∧ basisOf st'.h false v = some rb ∧ basisOf st'.h true v = some cb) ∧
    (∀ s v rb, op = .refSide s v rb → basisOf st'.h s v = some rb) := by
  obtain ⟨st2, h1, _, _, h3⟩ := step_ok (reach_inv hr) hl
  rw [hs] at h1
  obtain rfl : st2 = st' := (Except.ok.inj h1).symm
  refine ⟨?_, ?_, ?_⟩ <;> (intros; subst op; exact h3)

/-! ### C37 -/

/-- C37 is false of the code.  Exactly: the first release succeeds; the second one does nothing if the uniform matrix was
alone in its list, and violates an assertion if it had a neighbour. -/
theorem C37_second_release {V : Nat} {st : St} (hr : Reach V st) {v : Nat} {u : Unif} (hu : st.h.uni v = some u) (s : Bool) :
    ∃ h1, unrefSide (unref (st.N + 1)) s v st.h = .ok h1 ∧
      unrefSide (unref (st.N + 1)) s v h1 =
        if u.next s = none ∧ u.prev s = none then .ok h1 else .error .assertFail := by
  obtain ⟨T, I⟩ := reach_inv hr
  obtain ⟨h1, e1, J1, J2⟩ := unrefSide_ok (unref_okC st.N T st.N) I hu (s := s) rfl (prot_none _ _) (lc_le _ _ _)
  refine ⟨h1, e1, ?_⟩
  have hu1 := J2.self u hu
  unfold unrefSide
  rw [getUni_ok hu1, ok_bind]
  simp only [updB_self]
  by_cases h2 : u.next s = none
  · rw [cassert_true (by simpa using h2), ok_bind]
    by_cases h3 : u.prev s = none
    · rw [cassert_true (by simpa using h3), ok_bind, if_pos ⟨h2, h3⟩]; rfl
    · rw [if_neg fun h => h3 h.2]
      simp [cassert, h3]
  · rw [if_neg fun h => h2 h.1]
    simp [cassert, h2]; rfl

/-- C37, consequence: `del_uniform` after `unref_row_uniform` violates an assertion if the uniform matrix had a neighbour in
the row list. -/
theorem C37_del_after_release {V : Nat} {st : St} (hr : Reach V st) {v : Nat} {u : Unif} (hu : st.h.uni v = some u)
    (hn : ¬ (u.next false = none ∧ u.prev false = none)) :
    ∃ h1, unrefSide (unref (st.N + 1)) false v st.h = .ok h1 ∧ delUniform (unref (st.N + 1)) v h1 = .error .assertFail := by
  obtain ⟨h1, e1, e2⟩ := C37_second_release hr hu false
  refine ⟨h1, e1, ?_⟩
  rw [if_neg hn] at e2
  unfold delUniform
  rw [e2]; rfl

/-! ### a concrete history -/

/-- Two cluster bases (one the son of the other), an H2-matrix with a uniform matrix, a second uniform matrix; then everything
is released. -/
def rcOps : List Op :=
  [.newObj true 0 0, .newObj true 1 1, .refSon 1 0 0, .ref 0 (some 1), .newUniformH2 2 0 1 0, .ref 1 (some 2),
   .newUniform 1 1 0, .refSide true 1 1]

def rcRun (st : St) : List Op → R St
  | [] => .ok st
  | op :: l => do
    let st ← step st op
    rcRun st l

def rcInit : St := ⟨0, ⟨fun _ => none, fun _ => none⟩, 2, fun _ => none, fun _ => false⟩

/-- observations: counters, row lists, bases -/
def rcSee (st : St) : List (Option Nat) × List (Option Nat) :=
  ([0, 1, 2].map fun p => (st.h.obj p).map (·.refs), [(st.h.obj 1).bind (·.list false), (st.h.obj 1).bind (·.list true),
    (st.h.uni 1).bind (·.next false), (st.h.uni 0).bind (·.prev false)])

/-- the history runs; basis 1 is referenced by a variable, by the H2-matrix, by uniform 0 and twice by uniform 1 -/
example : (rcRun rcInit rcOps).map rcSee = .ok ([some 3, some 5, some 1], [some 1, some 1, some 0, some 1]) := by
  decide

/-- the operations are legal in the states in which they are performed: an overwritten pointer is involved in the last one -/
example : ∃ st, Reach 2 st ∧ st.vars 0 = some 1 ∧ st.vars 1 = some 2 ∧
    (st.h.uni 1).isSome ∧ ¬ ∀ u, st.h.uni 1 = some u → u.next false = none ∧ u.prev false = none := by
  have r0 : Reach 2 rcInit := .init
  have r1 := r0.step (op := .newObj true 0 0) rfl rfl
  have r2 := r1.step (op := .newObj true 1 1) rfl rfl
  have r3 := r2.step (op := .refSon 1 0 0) ⟨by decide, _, rfl, by decide, ⟨⟨_, rfl, rfl⟩, by unfold Complete; decide⟩,
    .float ⟨_, rfl, rfl⟩, .float ⟨_, rfl, rfl⟩⟩ rfl
  have r4 := r3.step (op := .ref 0 (some 1)) ⟨by decide, fun q' e => by
    cases e; exact ⟨by unfold Complete; decide, .float ⟨_, rfl, rfl⟩⟩⟩ rfl
  have r5 := r4.step (op := .newUniformH2 2 0 1 0) ⟨rfl, rfl, ⟨⟨_, rfl, rfl⟩, by unfold Complete; decide⟩,
    ⟨_, rfl, rfl⟩, by unfold Complete; decide⟩ rfl
  have r6 := r5.step (op := .ref 1 (some 2)) ⟨by decide, fun q' e => by
    cases e; exact ⟨by unfold Complete; decide, .float ⟨_, rfl, rfl⟩⟩⟩ rfl
  have r7 := r6.step (op := .newUniform 1 1 0) ⟨rfl, ⟨⟨_, rfl, rfl⟩, by unfold Complete; decide⟩,
    ⟨_, rfl, rfl⟩, by unfold Complete; decide⟩ rfl
  have r8 := r7.step (op := .refSide true 1 1) ⟨⟨_, rfl⟩, ⟨⟨_, rfl, rfl⟩, by unfold Complete; decide⟩,
    .var (y := 0) (by decide) (by decide) rfl⟩ rfl
  refine ⟨_, r8, rfl, rfl, by decide, fun h => ?_⟩
  have := (h _ rfl).1
  revert this; decide

/-- releasing everything leaves an empty heap -/
example : (rcRun rcInit (rcOps ++ [.unref 0, .delUniform 1, .unref 1])).map rcSee =
    .ok ([none, none, none], [none, none, none, none]) := by decide

/-- re-assigning the only reference -/
example : (rcRun rcInit [.newObj true 0 0, .ref 0 (some 0), .ref 0 (some 0)]).map rcSee = .error .ub := by decide

end H2.Props
