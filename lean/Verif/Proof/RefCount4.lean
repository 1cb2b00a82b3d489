import Verif.Proof.RefCount3

set_option linter.unusedSectionVars false

namespace H2.RefC

variable {N n : Nat} {T : Nat → Bool} {X : Ex} {ext eU : Nat → Nat} {h : Heap}

theorem sum_grow {f : Nat → Nat} {N N' : Nat} (h : N ≤ N') (h0 : ∀ k, N ≤ k → f k = 0) :
    ∑ k ∈ Finset.range N', f k = ∑ k ∈ Finset.range N, f k := by
  symm
  refine Finset.sum_subset (fun k hk => Finset.mem_range.mpr (lt_of_lt_of_le (Finset.mem_range.mp hk) h)) fun k _ hk => ?_
  exact h0 k (by simpa using hk)

theorem Inv.grow {N' : Nat} (I : Inv N T h X ext eU) (hN : N ≤ N') : Inv N' T h X ext eU := by
  have e1 : ∀ p, cF N' h X p = cF N h X p := fun p => by
    unfold cF
    rw [sum_grow hN]
    intro k hk
    have := (I.bnd k hk).1
    unfold F fields
    rw [this]
    split <;> rfl
  have e2 : ∀ p, cB N' h X p = cB N h X p := fun p => by
    unfold cB
    refine sum_grow hN fun k hk => ?_
    have := (I.bnd k hk).2
    have hB : ∀ s, B h X s k = none := fun s => by
      unfold B basisOf
      rw [this]
      split <;> rfl
    unfold tB
    rw [hB, hB]; simp
  have e3 : ∀ v, cU N' h X v = cU N h X v := fun p => by
    unfold cU
    refine sum_grow hN fun k hk => ?_
    have := (I.bnd k hk).1
    have hB : U h X k = none := by
      unfold U ownedOf
      rw [this]
      split <;> rfl
    rw [hB]; simp
  exact ⟨fun p hp => I.bnd p (by omega), fun p o ho => by rw [e1, e2]; exact I.refs p o ho,
    fun p ho => by rw [e1, e2]; exact I.dead p ho, I.zomb, fun v => by rw [e3]; exact I.uni v, I.compl, I.lists, I.ty, I.tyF,
    I.tyU, I.tyB, I.att⟩

theorem fields_dead {p q : Nat} (I : Inv N T h Ex.none ext eU) (hp : h.obj p = none) : some p ∉ fields h q := by
  intro hm
  have hq : q < N := by
    by_contra hn
    have := (I.bnd q (by omega)).1
    unfold fields at hm
    rw [this] at hm; simp at hm
  have h0 := I.dead p hp
  have : 0 < cF N h Ex.none p := cF_pos hq rfl rfl hm
  omega

/-- allocation of an object that is not complete yet -/
theorem Inv.alloc {p : Nat} {o : Obj} (I : Inv N T h Ex.none ext eU) (hp : h.obj p = none) (hN : p < N) (hr : o.refs = 0)
    (hl : ∀ s, o.list s = none) (hu : o.bas = true → o.u = none) (hs : o.bas = true → ∀ q, some q ∉ o.son ++ o.own) :
    Inv N (upd T p o.bas) (h.setObj p o) (Ex.none.addo p) ext eU := by
  have eT : ∀ q, q ≠ p → upd T p o.bas q = T q := fun q hq => upd_ne _ _ hq
  have eF : ∀ q, F (h.setObj p o) (Ex.none.addo p) q = F h Ex.none q := by
    intro q
    by_cases e : q = p
    · subst e; simp [F, Ex.addo, upd_self, fields, hp]
    · unfold F
      rw [fields_setObj, if_neg e]
      simp only [Ex.addo, upd_ne _ _ e]
  have eUU : ∀ q, U (h.setObj p o) (Ex.none.addo p) q = U h Ex.none q := by
    intro q
    by_cases e : q = p
    · subst e; simp [U, Ex.addo, upd_self, ownedOf, hp]
    · unfold U
      rw [ownedOf_setObj, if_neg e]
      simp only [Ex.addo, upd_ne _ _ e]
  have SR : SameRefs h (h.setObj p o) Ex.none (Ex.none.addo p) := ⟨eF, eUU, fun _ _ => rfl⟩
  have obj' : ∀ q oq, (h.setObj p o).obj q = some oq → (q = p ∧ oq = o) ∨ (q ≠ p ∧ h.obj q = some oq) := by
    intro q oq hq
    by_cases e : q = p
    · subst e
      simp only [Heap.setObj, upd_self, Option.some.injEq] at hq
      exact .inl ⟨rfl, hq.symm⟩
    · simp only [Heap.setObj, upd_ne _ _ e] at hq
      exact .inr ⟨e, hq⟩
  have h0 := I.dead p hp
  have hB0 : ∀ s v, B h Ex.none s v ≠ some p := by
    intro s v hv
    obtain ⟨o', ho', _⟩ := I.basis_live hv
    rw [hp] at ho'; cases ho'
  refine ⟨fun q hq => ⟨?_, (I.bnd q hq).2⟩, fun q oq hq => ?_, fun q hq => ?_, fun q hq => ?_, fun w => ?_,
    fun q oq hq hpos => ?_, fun q oq hq s => ?_, fun q oq hq => ?_, fun q q' hT hq => ?_, fun q oq hq hT => ?_,
    fun v s q hq => ?_, I.att⟩
  · simp only [Heap.setObj]
    rw [upd_ne _ _ (by omega)]; exact (I.bnd q hq).1
  · rw [SR.cF, SR.cB]
    rcases obj' q oq hq with ⟨rfl, rfl⟩ | ⟨e, hq⟩
    · omega
    · exact I.refs q oq hq
  · rw [SR.cF, SR.cB]
    have e : q ≠ p := by rintro rfl; simp [Heap.setObj, upd_self] at hq
    simp only [Heap.setObj, upd_ne _ _ e] at hq
    exact I.dead q hq
  · rcases (Ex.addo_zo Ex.none p q).mp hq with rfl | hq
    · exact ⟨o, upd_self _ _ _, hr⟩
    · cases hq
  · rw [SR.cU]; exact I.uni w
  · rcases obj' q oq hq with ⟨rfl, rfl⟩ | ⟨e, hq⟩
    · omega
    · rw [fields_setObj, if_neg e]; exact I.compl q oq hq hpos
  · rcases obj' q oq hq with ⟨rfl, rfl⟩ | ⟨e, hq⟩
    · exact ⟨[], hl s, List.nodup_nil, fun v => by
        constructor
        · intro h; simp at h
        · intro h; exact absurd h (hB0 s v)⟩
    · obtain ⟨L, g1, g2, g3⟩ := I.lists q oq hq s
      exact ⟨L, linked_congr (h := h) (fun w _ x hx => ⟨x, hx, rfl, rfl⟩) g1, g2, g3⟩
  · rcases obj' q oq hq with ⟨rfl, rfl⟩ | ⟨e, hq⟩
    · rw [upd_self]
    · rw [eT q e]; exact I.ty q oq hq
  · rw [fields_setObj] at hq
    by_cases e : q = p
    · subst e
      rw [upd_self] at hT
      rw [if_pos rfl] at hq
      exact absurd hq (hs hT q')
    · rw [if_neg e] at hq
      rw [eT q e] at hT
      have e' : q' ≠ p := by rintro rfl; exact fields_dead I hp hq
      rw [eT q' e']
      exact I.tyF q q' hT hq
  · rcases obj' q oq hq with ⟨rfl, rfl⟩ | ⟨e, hq⟩
    · rw [upd_self] at hT; exact hu hT
    · rw [eT q e] at hT; exact I.tyU q oq hq hT
  · have e : q ≠ p := by rintro rfl; exact hB0 s v hq
    rw [eT q e]; exact I.tyB v s q hq

/-- the pointers of an object count again -/
theorem Inv.unzomb {p : Nat} {o : Obj} (I : Inv N T h (X.addo p) (adl ext (fields h p)) (ado eU o.u))
    (ho : h.obj p = some o) (hz : X.zo p = false) (hz' : X.zp p = false) : Inv N T h X ext eU := by
  have hp := I.lt ho
  refine ⟨I.bnd, fun q oq hq => ?_, fun q hq => ?_, fun q hq => I.zomb q ((Ex.addo_zo X p q).mpr (.inr hq)), fun w => ?_,
    I.compl, I.lists, I.ty, I.tyF, I.tyU, I.tyB, I.att⟩
  · have := I.refs q oq hq
    have := cF_addo (h := h) hp hz hz' q
    have : cB N h (X.addo p) q = cB N h X q := rfl
    simp only [adl] at *; omega
  · have := I.dead q hq
    have := cF_addo (h := h) hp hz hz' q
    have : cB N h (X.addo p) q = cB N h X q := rfl
    simp only [adl] at *; omega
  · have := I.uni w
    have e := cU_addo (h := h) hp hz w
    rw [ownedOf_some ho] at e
    simp only [ado] at *; omega

theorem cF_addp {p : Nat} (hp : p < N) (hz : X.zo p = false) (hz' : X.zp p = false) (q : Nat) :
    cF N h (X.addp p) q + (fields h p).count (some q) = cF N h X q := by
  have := sum_change (f := fun k => (F h X k).count (some q)) (f' := fun k => (F h (X.addp p) k).count (some q)) hp
    (fun k hk => by simp only [F, Ex.addp, upd_ne _ _ hk])
  have e1 : F h (X.addp p) p = [] := by simp [F, Ex.addp, upd_self]
  have e2 : F h X p = fields h p := by simp [F, hz, hz']
  rw [e1, e2] at this
  unfold cF
  simp only [List.count_nil] at this
  omega

/-- an object is opened for changes: its pointers count as external -/
theorem Inv.openp {p : Nat} (hz : X.zo p = false) (hz' : X.zp p = false) (hp : p < N) :
    Inv N T h X ext eU ↔ Inv N T h (X.addp p) (adl ext (fields h p)) eU := by
  constructor
  all_goals
    intro I
    refine ⟨I.bnd, fun q oq hq => ?_, fun q hq => ?_, I.zomb, I.uni,
      I.compl, I.lists, I.ty, I.tyF, I.tyU, I.tyB, I.att⟩
    · have := I.refs q oq hq
      have := cF_addp (h := h) hp hz hz' q
      have : cB N h (X.addp p) q = cB N h X q := rfl
      simp only [adl] at *; omega
    · have := I.dead q hq
      have := cF_addp (h := h) hp hz hz' q
      have : cB N h (X.addp p) q = cB N h X q := rfl
      simp only [adl] at *; omega

/-- an object in the middle of an operation is changed -/
theorem Inv.edit {p : Nat} {o o' : Obj} (I : Inv N T h X ext eU) (ho : h.obj p = some o)
    (hx : X.zo p = true ∨ X.zp p = true ∧ o'.u = o.u) (e1 : o'.refs = o.refs) (e2 : o'.bas = o.bas) (e3 : o'.list = o.list)
    (hc : 0 < o.refs → none ∉ o'.son ++ o'.own) (ht : T p = true → ∀ q, some q ∈ o'.son ++ o'.own → T q = true)
    (hu : T p = true → o'.u = none) : Inv N T (h.setObj p o') X ext eU := by
  have obj' : ∀ q oq, (h.setObj p o').obj q = some oq → (q = p ∧ oq = o') ∨ (q ≠ p ∧ h.obj q = some oq) := by
    intro q oq hq
    by_cases e : q = p
    · subst e
      simp only [Heap.setObj, upd_self, Option.some.injEq] at hq
      exact .inl ⟨rfl, hq.symm⟩
    · simp only [Heap.setObj, upd_ne _ _ e] at hq
      exact .inr ⟨e, hq⟩
  have SR : SameRefs h (h.setObj p o') X X := by
    refine ⟨fun q => ?_, fun q => ?_, fun _ _ => rfl⟩
    · by_cases e : q = p
      · subst e
        rcases hx with hx | ⟨hx, _⟩ <;> simp [F, hx]
      · unfold F; rw [fields_setObj, if_neg e]
    · by_cases e : q = p
      · subst e
        rcases hx with hx | ⟨hx, hu⟩
        · simp [U, hx]
        · unfold U; rw [ownedOf_setObj, if_pos rfl, ownedOf_some ho, hu]
      · unfold U; rw [ownedOf_setObj, if_neg e]
  refine ⟨fun q hq => ⟨?_, (I.bnd q hq).2⟩, fun q oq hq => ?_, fun q hq => ?_, fun q hq => ?_, fun w => ?_,
    fun q oq hq hp => ?_, fun q oq hq s => ?_, fun q oq hq => ?_, fun q q' hT hq => ?_, fun q oq hq hT => ?_, I.tyB, I.att⟩
  · have := I.lt ho
    simp only [Heap.setObj]
    rw [upd_ne _ _ (by omega)]; exact (I.bnd q hq).1
  · rw [SR.cF, SR.cB]
    rcases obj' q oq hq with ⟨rfl, rfl⟩ | ⟨e, hq⟩
    · rw [e1]; exact I.refs q o ho
    · exact I.refs q oq hq
  · rw [SR.cF, SR.cB]
    have e : q ≠ p := by rintro rfl; simp [Heap.setObj, upd_self] at hq
    simp only [Heap.setObj, upd_ne _ _ e] at hq
    exact I.dead q hq
  · obtain ⟨oq, h1, h2⟩ := I.zomb q hq
    by_cases e : q = p
    · subst e
      rw [ho] at h1; cases h1
      exact ⟨o', upd_self _ _ _, by rw [e1, h2]⟩
    · exact ⟨oq, by simp only [Heap.setObj, upd_ne _ _ e]; exact h1, h2⟩
  · rw [SR.cU]; exact I.uni w
  · rw [fields_setObj]
    rcases obj' q oq hq with ⟨rfl, rfl⟩ | ⟨e, hq⟩
    · rw [if_pos rfl]; exact hc (by omega)
    · rw [if_neg e]; exact I.compl q oq hq hp
  · have hl : ∃ o2, h.obj q = some o2 ∧ oq.list s = o2.list s := by
      rcases obj' q oq hq with ⟨rfl, rfl⟩ | ⟨e, hq⟩
      · exact ⟨o, ho, by rw [e3]⟩
      · exact ⟨oq, hq, rfl⟩
    obtain ⟨o2, h1, h2⟩ := hl
    obtain ⟨L, g1, g2, g3⟩ := I.lists q o2 h1 s
    exact ⟨L, by rw [h2]; exact linked_congr (h := h) (fun w _ x hx => ⟨x, hx, rfl, rfl⟩) g1, g2, g3⟩
  · rcases obj' q oq hq with ⟨rfl, rfl⟩ | ⟨e, hq⟩
    · rw [e2]; exact I.ty q o ho
    · exact I.ty q oq hq
  · rw [fields_setObj] at hq
    by_cases e : q = p
    · subst e
      rw [if_pos rfl] at hq
      exact ht hT q' hq
    · rw [if_neg e] at hq; exact I.tyF q q' hT hq
  · rcases obj' q oq hq with ⟨rfl, rfl⟩ | ⟨e, hq⟩
    · exact hu hT
    · exact I.tyU q oq hq hT

/-- an operation that only adds references -/
structure Grow (h h' : Heap) : Prop where
  obj : ∀ q o, h.obj q = some o → ∃ o', h'.obj q = some o' ∧ o'.son = o.son ∧ o'.own = o.own ∧ o'.u = o.u ∧
    o'.bas = o.bas ∧ o.refs ≤ o'.refs
  obj' : ∀ q o', h'.obj q = some o' → ∃ o, h.obj q = some o

theorem Grow.refl (h : Heap) : Grow h h := ⟨fun _ o e => ⟨o, e, rfl, rfl, rfl, rfl, le_rfl⟩, fun _ o e => ⟨o, e⟩⟩
theorem Grow.trans {h h' h'' : Heap} (e : Grow h h') (e' : Grow h' h'') : Grow h h'' := by
  refine ⟨fun q o hq => ?_, fun q o hq => ?_⟩
  · obtain ⟨o', h1, a1, a2, a3, a4, a5⟩ := e.obj q o hq
    obtain ⟨o'', h2, b1, b2, b3, b4, b5⟩ := e'.obj q o' h1
    exact ⟨o'', h2, b1.trans a1, b2.trans a2, b3.trans a3, b4.trans a4, a5.trans b5⟩
  · obtain ⟨o', h1⟩ := e'.obj' q o hq
    exact e.obj' q o' h1

theorem Grow.fields {h h' : Heap} (e : Grow h h') (q : Nat) : fields h' q = fields h q := by
  cases hq : h.obj q with
  | none =>
    have : h'.obj q = none := by
      cases hq' : h'.obj q with
      | none => rfl
      | some o' => obtain ⟨o, ho⟩ := e.obj' q o' hq'; rw [hq] at ho; cases ho
    unfold RefC.fields; rw [hq, this]
  | some o =>
    obtain ⟨o', h1, a1, a2, _⟩ := e.obj q o hq
    rw [fields_some h1, fields_some hq, a1, a2]

theorem incref_ok {p : Nat} {o : Obj} (I : Inv N T h X ext eU) (ho : h.obj p = some o) (hz : X.zo p = false)
    (hc : none ∉ fields h p) :
    Tot (incref (some p) h) fun h' => Inv N T h' X (ad ext p) eU ∧ Grow h h' ∧ h'.uni = h.uni ∧
      ∀ q, q ≠ p → h'.obj q = h.obj q := by
  simp only [incref]
  rw [getObj_ok ho, ok_bind]
  refine Tot.pure ⟨I.setRefs ho (fun q hq => by simp [ad, hq]) ?_ hz fun _ => hc, ⟨fun q oq hq => ?_, fun q oq hq => ?_⟩, rfl,
    fun q hq => by simp only [Heap.setObj, upd_ne _ _ hq]⟩
  · have := I.refs p o ho
    simp [ad]; omega
  · by_cases e : q = p
    · subst e
      rw [ho] at hq; cases hq
      exact ⟨_, upd_self _ _ _, rfl, rfl, rfl, rfl, Nat.le_succ _⟩
    · exact ⟨oq, by simp only [Heap.setObj, upd_ne _ _ e]; exact hq, rfl, rfl, rfl, rfl, le_rfl⟩
  · by_cases e : q = p
    · subst e; exact ⟨o, ho⟩
    · simp only [Heap.setObj, upd_ne _ _ e] at hq; exact ⟨oq, hq⟩

theorem cB_attach {N : Nat} {h h' : Heap} {X : Ex} {s : Bool} {v p : Nat} (hv : v < N)
    (hb : B h (X.addz s v) s v = none)
    (he : ∀ t w, B h' X t w = if t = s ∧ w = v then some p else B h (X.addz s v) t w) (q : Nat) :
    cB N h' X q = cB N h (X.addz s v) q + (if q = p then 1 else 0) := by
  have := sum_change (f := tB h (X.addz s v) q) (f' := tB h' X q) hv (fun k hk => by
    unfold tB
    have hh : ∀ t, B h' X t k = B h (X.addz s v) t k := fun t => by rw [he, if_neg fun h => hk h.2]
    rw [hh, hh])
  unfold cB
  have h2 : tB h' X q v = tB h (X.addz s v) q v + (if q = p then 1 else 0) := by
    unfold tB
    rw [he, he]
    have e1 : (some p = some q) ↔ q = p := by simp [eq_comm]
    cases s
    · simp only [and_self, if_true, reduceCtorEq, if_false, Bool.true_eq_false, false_and, hb, e1]
      omega
    · simp only [and_self, if_true, reduceCtorEq, if_false, Bool.false_eq_true, false_and, hb, e1]
      omega
  omega

theorem attach_ok {s : Bool} {v rb : Nat} {u : Unif} {o : Obj} (I : Inv N T h (X.addz s v) ext eU)
    (hu : h.uni v = some u) (hub : u.basis s = none) (hz : X.z s v = false) (ho : h.obj rb = some o) (hT : T rb = true)
    (hzo : X.zo rb = false) (hc : none ∉ fields h rb) :
    Tot (attach n s v rb h) fun h' => Inv N T h' X ext eU ∧ Grow h h' ∧ (∀ q, q ≠ rb → h'.obj q = h.obj q) ∧
      ∃ u', h'.uni v = some u' ∧ u'.basis = updB u.basis s (some rb) := by
  have hvN := I.ltU hu
  obtain ⟨L, hL, hnd, hmem⟩ := I.lists rb o ho s
  have hBv : B h (X.addz s v) s v = none := by rw [B, Ex.addz_self]; rfl
  have hvL : v ∉ L := fun hv => by rw [(hmem v).mp hv] at hBv; cases hBv
  unfold attach
  rw [getUni_ok hu, ok_bind, hub]
  simp only [unrefOpt, pure_bind]
  rw [getUni_ok hu, ok_bind]
  simp only [incref]
  rw [getObj_ok (o := o) (by exact ho), ok_bind]
  simp only [pure_bind]
  rw [getObj_ok (o := { o with refs := o.refs + 1 }) (by simp [Heap.setObj, upd_self]), ok_bind,
    getUni_ok (u := { u with basis := updB u.basis s (some rb) }) (by simp [Heap.setObj, Heap.setUni, upd_self]), ok_bind]
  simp only
  generalize hh1 : ((h.setUni v { u with basis := updB u.basis s (some rb) }).setObj rb { o with refs := o.refs + 1 }).setUni v
    { basis := updB u.basis s (some rb), next := updB u.next s (o.list s), prev := updB u.prev s none } = h1
  have uni1 : ∀ w, w ≠ v → h1.uni w = h.uni w := fun w hw => by
    rw [← hh1]; simp only [Heap.setUni, Heap.setObj, upd_ne _ _ hw]
  have uni1v : h1.uni v = some { basis := updB u.basis s (some rb), next := updB u.next s (o.list s), prev := updB u.prev s none } := by
    rw [← hh1]; simp only [Heap.setUni, Heap.setObj, upd_self]
  have obj1 : ∀ q, q ≠ rb → h1.obj q = h.obj q := fun q hq => by
    rw [← hh1]; simp only [Heap.setUni, Heap.setObj, upd_ne _ _ hq]
  have obj1r : h1.obj rb = some { o with refs := o.refs + 1 } := by
    rw [← hh1]; simp only [Heap.setUni, Heap.setObj, upd_self]
  have hlm := linked_mem hL
  have hfirst : ∀ w, o.list s = some w → w ∈ L := linked_first hL
  refine Tot.bind (nbr_upd (h := h1) (o.list s) (fun x => { x with prev := updB x.prev s (some v) }) (fun w hw => by
    obtain ⟨x, hx⟩ := hlm w (hfirst w hw)
    have : w ≠ v := by rintro rfl; exact hvL (hfirst w hw)
    exact ⟨x, by rw [uni1 w this]; exact hx⟩)) fun h2 _ ⟨o2, u2⟩ => ?_
  rw [getObj_ok (o := { o with refs := o.refs + 1 }) (by rw [o2]; exact obj1r), ok_bind]
  simp only
  have h2v : h2.uni v = some { basis := updB u.basis s (some rb), next := updB u.next s (o.list s), prev := updB u.prev s none } := by
    rw [u2, uni1v, Option.map_some, if_neg]
    intro e; exact hvL (hfirst v e)
  have h2w : ∀ w x, w ≠ v → h.uni w = some x → ∃ x', h2.uni w = some x' ∧ x'.basis = x.basis ∧ x'.next = x.next ∧
      ∀ t, x'.prev t = if t = s ∧ o.list s = some w then some v else x.prev t := by
    intro w x hw hx
    refine ⟨_, by rw [u2, uni1 w hw, hx, Option.map_some], ?_, ?_, fun t => ?_⟩
    · by_cases e : o.list s = some w <;> simp [e]
    · by_cases e : o.list s = some w <;> simp [e]
    · by_cases e : o.list s = some w <;> by_cases e3 : t = s <;> simp [e, e3, updB]
  have h2n : ∀ w, w ≠ v → h.uni w = none → h2.uni w = none := fun w hw hx => by rw [u2, uni1 w hw, hx]; rfl
  generalize hh3 : h2.setObj rb (⟨o.bas, o.refs + 1, o.son, o.own, o.u, updB o.list s (some v)⟩ : Obj) = h3
  have uni3 : h3.uni = h2.uni := by rw [← hh3]; rfl
  have obj3 : ∀ q, q ≠ rb → h3.obj q = h.obj q := fun q hq => by
    rw [← hh3]; simp only [Heap.setObj, upd_ne _ _ hq, o2, obj1 q hq]
  have obj3r : h3.obj rb = some (⟨o.bas, o.refs + 1, o.son, o.own, o.u, updB o.list s (some v)⟩ : Obj) := by rw [← hh3]; simp [Heap.setObj, upd_self]
  have f3 : ∀ q, fields h3 q = fields h q := by
    intro q
    by_cases e : q = rb
    · subst e; rw [fields_some obj3r, fields_some ho]
    · unfold fields; rw [obj3 q e]
  have w3' : ∀ q, ownedOf h3 q = ownedOf h q := by
    intro q
    by_cases e : q = rb
    · subst e; rw [ownedOf_some obj3r, ownedOf_some ho]
    · unfold ownedOf; rw [obj3 q e]
  have cF3 : ∀ q, cF N h3 X q = cF N h (X.addz s v) q := by
    intro q; unfold cF F; simp only [f3]; rfl
  have cU3 : ∀ q, cU N h3 X q = cU N h (X.addz s v) q := by
    intro q; unfold cU U; simp only [w3']; rfl
  have B3 : ∀ t w, B h3 X t w = if t = s ∧ w = v then some rb else B h (X.addz s v) t w := by
    intro t w
    by_cases e : t = s ∧ w = v
    · obtain ⟨rfl, rfl⟩ := e
      rw [if_pos ⟨rfl, rfl⟩, B, hz, basisOf_some (h := h3) (by rw [uni3]; exact h2v)]
      exact updB_self _ _ _
    · rw [if_neg e, B, B, Ex.addz_ne X e]
      congr 1
      by_cases e1 : w = v
      · subst e1
        have : t ≠ s := fun h => e ⟨h, rfl⟩
        rw [basisOf_some (h := h3) (by rw [uni3]; exact h2v), basisOf_some hu]
        exact updB_ne _ _ this
      · cases hw : h.uni w with
        | none => simp [basisOf, uni3, h2n w e1 hw, hw]
        | some x =>
          obtain ⟨x', g1, g2, _⟩ := h2w w x e1 hw
          rw [basisOf_some (h := h3) (by rw [uni3]; exact g1), basisOf_some hw, g2]
  have cB3 := cB_attach hvN hBv B3
  have obj' : ∀ q oq, h3.obj q = some oq → ∃ oq', h.obj q = some oq' ∧ oq.bas = oq'.bas ∧ oq.son = oq'.son ∧
      oq.own = oq'.own ∧ oq.u = oq'.u ∧ oq.refs = oq'.refs + (if q = rb then 1 else 0) ∧
      ∀ t, oq.list t = if t = s ∧ q = rb then some v else oq'.list t := by
    intro q oq hq
    by_cases e : q = rb
    · subst e
      rw [obj3r] at hq; cases hq
      refine ⟨o, ho, rfl, rfl, rfl, rfl, by simp, fun t => ?_⟩
      by_cases e3 : t = s <;> simp [e3, updB]
    · rw [obj3 q e] at hq
      exact ⟨oq, hq, rfl, rfl, rfl, rfl, by simp [e], fun t => by simp [e]⟩
  refine Tot.pure ⟨?_, ⟨fun q oq hq => ?_, fun q oq hq => ?_⟩, obj3, _, by rw [uni3]; exact h2v, rfl⟩
  · refine ⟨fun q hq => ⟨?_, ?_⟩, fun q oq hq => ?_, fun q hq => ?_, fun q hq => ?_, fun w => ?_, fun q oq hq hp => ?_,
      fun q oq hq t => ?_, fun q oq hq => ?_, fun q q' hT hq => ?_, fun q oq hq hT => ?_, fun w t q hq => ?_,
      fun w x t hw hzw => ?_⟩
    · have := I.lt ho
      rw [obj3 q (by omega)]; exact (I.bnd q hq).1
    · rw [uni3]; exact h2n q (by omega) (I.bnd q hq).2
    · obtain ⟨oq', g1, _, _, _, _, g2, _⟩ := obj' q oq hq
      have := I.refs q oq' g1
      rw [cF3, cB3]
      omega
    · have e : q ≠ rb := by rintro rfl; rw [obj3r] at hq; cases hq
      rw [cF3, cB3, if_neg e]
      rw [obj3 q e] at hq
      have := I.dead q hq; omega
    · obtain ⟨oq, g1, g2⟩ := I.zomb q hq
      have e : q ≠ rb := by rintro rfl; rw [hzo] at hq; cases hq
      exact ⟨oq, by rw [obj3 q e]; exact g1, g2⟩
    · rw [cU3, ← I.uni w]
      have : (h3.uni w).isSome = (h.uni w).isSome := by
        rw [uni3]
        by_cases e : w = v
        · subst e; rw [h2v, hu]; rfl
        · cases hw : h.uni w with
          | none => rw [h2n w e hw]
          | some x =>
            obtain ⟨x', g1, _⟩ := h2w w x e hw
            rw [g1]; rfl
      rw [this]
    · rw [f3]
      by_cases e : q = rb
      · rw [e]; exact hc
      · obtain ⟨oq', g1, _, _, _, _, g2, _⟩ := obj' q oq hq
        rw [if_neg e] at g2
        exact I.compl q oq' g1 (by omega)
    · obtain ⟨oq', g1, _, _, _, _, _, g2⟩ := obj' q oq hq
      by_cases e : q = rb ∧ t = s
      · obtain ⟨rfl, rfl⟩ := e
        refine ⟨v :: L, ⟨by rw [g2, if_pos ⟨rfl, rfl⟩], _, by rw [uni3]; exact h2v, updB_self _ _ _, ?_⟩,
          List.nodup_cons.mpr ⟨hvL, hnd⟩, fun w => ?_⟩
        · simp only [updB_self]
          have key : ∀ w ∈ L, w ≠ v := fun w hw e => hvL (e ▸ hw)
          cases L with
          | nil => exact hL
          | cons a L =>
            obtain ⟨e1, x, e2, e3, e4⟩ := hL
            obtain ⟨x', k1, k2, k3, k4⟩ := h2w a x (key a List.mem_cons_self) e2
            refine ⟨e1, x', by rw [uni3]; exact k1, by rw [k4, if_pos ⟨rfl, e1⟩], ?_⟩
            rw [k3]
            refine linked_congr (fun w hw y hy => ?_) e4
            obtain ⟨y', l1, l2, l3, l4⟩ := h2w w y (key w (List.mem_cons_of_mem _ hw)) hy
            refine ⟨y', by rw [uni3]; exact l1, ?_, by rw [l3]⟩
            rw [l4, if_neg]
            rintro ⟨_, e5⟩
            rw [e1] at e5; cases e5
            exact (List.nodup_cons.mp hnd).1 hw
        · rw [B3]
          by_cases e : w = v
          · subst e; simp
          · rw [if_neg fun h => e h.2, ← hmem w]; simp [e]
      · obtain ⟨L', k1, k2, k3⟩ := I.lists q oq' g1 t
        have k4 : ∀ w ∈ L', ¬ (t = s ∧ w = v) := by
          rintro w hw ⟨rfl, rfl⟩
          have := (k3 w).mp hw
          rw [hBv] at this; cases this
        refine ⟨L', ?_, k2, fun w => ?_⟩
        · rw [g2, if_neg fun h => e ⟨h.2, h.1⟩]
          refine linked_congr (fun w hw x hx => ?_) k1
          by_cases e1 : w = v
          · subst e1
            have et : t ≠ s := fun h => k4 w hw ⟨h, rfl⟩
            rw [hu] at hx; cases hx
            exact ⟨_, by rw [uni3]; exact h2v, updB_ne _ _ et, updB_ne _ _ et⟩
          · obtain ⟨x', l1, l2, l3, l4⟩ := h2w w x e1 hx
            refine ⟨x', by rw [uni3]; exact l1, ?_, by rw [l3]⟩
            rw [l4, if_neg]
            rintro ⟨rfl, e2⟩
            have m1 := (k3 w).mp hw
            have m2 := (hmem w).mp (hfirst w e2)
            rw [m1] at m2; cases m2
            exact e ⟨rfl, rfl⟩
        · rw [k3, B3]
          by_cases e1 : t = s ∧ w = v
          · rw [if_pos e1, e1.1, e1.2, hBv]
            simp only [reduceCtorEq, Option.some.injEq, false_iff]
            rintro rfl; exact e ⟨rfl, e1.1⟩
          · rw [if_neg e1]
    · obtain ⟨oq', g1, g3, _⟩ := obj' q oq hq
      rw [g3]; exact I.ty q oq' g1
    · rw [f3] at hq; exact I.tyF q q' hT hq
    · obtain ⟨oq', g1, _, _, _, g3, _⟩ := obj' q oq hq
      rw [g3]; exact I.tyU q oq' g1 hT
    · rw [B3] at hq
      by_cases e : t = s ∧ w = v
      · rw [if_pos e] at hq; cases hq; exact hT
      · rw [if_neg e] at hq; exact I.tyB w t q hq
    · rw [uni3] at hw
      by_cases e : t = s ∧ w = v
      · obtain ⟨rfl, rfl⟩ := e
        rw [h2v] at hw; cases hw
        simp [updB_self]
      · have hzw' : (X.addz s v).z t w = false := by rw [Ex.addz_ne X e]; exact hzw
        by_cases e1 : w = v
        · subst e1
          have et : t ≠ s := fun h => e ⟨h, rfl⟩
          rw [h2v] at hw; cases hw
          simp only [updB_ne _ _ et]
          exact I.att w u t hu hzw'
        · cases hw' : h.uni w with
          | none => rw [h2n w e1 hw'] at hw; cases hw
          | some x0 =>
            obtain ⟨x', l1, l2, _⟩ := h2w w x0 e1 hw'
            rw [l1] at hw; cases hw
            rw [l2]; exact I.att w x0 t hw' hzw'
  · by_cases e : q = rb
    · subst e
      rw [ho] at hq; cases hq
      exact ⟨_, obj3r, rfl, rfl, rfl, rfl, Nat.le_succ _⟩
    · exact ⟨oq, by rw [obj3 q e]; exact hq, rfl, rfl, rfl, rfl, le_rfl⟩
  · obtain ⟨oq', g1, _⟩ := obj' q oq hq
    exact ⟨oq', g1⟩

end H2.RefC
