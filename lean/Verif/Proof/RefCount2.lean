import Verif.Proof.RefCount

set_option linter.unusedSectionVars false

namespace H2.RefC

theorem nbr_upd {h : Heap} (o : Option Nat) (g : Unif → Unif) (hl : ∀ w, o = some w → ∃ x, h.uni w = some x) :
    Tot (setNbr o g h) fun h1 => h1.obj = h.obj ∧
      ∀ w, h1.uni w = (h.uni w).map fun x => if o = some w then g x else x := by
  cases o with
  | none => exact Tot.pure ⟨rfl, fun w => by simp⟩
  | some w0 =>
    obtain ⟨x, hx⟩ := hl w0 rfl
    simp only [setNbr]
    rw [getUni_ok hx, ok_bind]
    refine Tot.pure ⟨rfl, fun w => ?_⟩
    unfold Heap.setUni
    by_cases e : w = w0
    · subst e; simp [upd_self, hx]
    · simp only [upd_ne _ _ e]
      have : ¬ w0 = w := fun h => e h.symm
      simp [this]

/-- relation between the heaps before and after `unrefSide` -/
structure EvoS (T : Nat → Bool) (s : Bool) (v : Nat) (h h' : Heap) : Prop where
  obj : ∀ q o', h'.obj q = some o' → ∃ o, h.obj q = some o ∧ o'.son = o.son ∧ o'.own = o.own ∧ o'.u = o.u ∧ o'.bas = o.bas ∧
    o'.refs ≤ o.refs ∧ (o'.refs = 0 → o.refs = 0)
  float : ∀ q o, h.obj q = some o → o.refs = 0 → ∃ o', h'.obj q = some o'
  uni : ∀ w u', h'.uni w = some u' → ∃ u, h.uni w = some u ∧
    u'.basis = if w = v then updB u.basis s none else u.basis
  nc : ∀ q, T q = false → h'.obj q = h.obj q
  uni' : ∀ w u, h.uni w = some u → ∃ u', h'.uni w = some u'
  self : ∀ u, h.uni v = some u → h'.uni v = some { u with basis := updB u.basis s none }

theorem linked_first {h : Heap} {s : Bool} {prev head : Option Nat} : ∀ {L : List Nat}, Linked h s prev L head →
    ∀ w, head = some w → w ∈ L
  | [], hl, w, e => by rw [Linked] at hl; rw [hl] at e; cases e
  | v :: L, hl, w, e => by rw [hl.1] at e; cases e; exact List.mem_cons_self

/-- the neighbours of a list element are list elements -/
theorem linked_nbrs {h : Heap} {s : Bool} {A C : List Nat} {v : Nat} {head : Option Nat} {u : Unif}
    (hl : Linked h s none (A ++ v :: C) head) (hu : h.uni v = some u) :
    (∀ w, u.next s = some w → w ∈ C) ∧ (∀ w, u.prev s = some w → w ∈ A) := by
  obtain ⟨m, h1, h2, u', h3, h4, h5⟩ := linked_append.mp hl
  obtain rfl : u' = u := by rw [hu] at h3; exact (Option.some.inj h3).symm
  refine ⟨linked_first h5, fun w hw => ?_⟩
  rcases lastOr_cases none A with ⟨_, e4⟩ | ⟨b, hb, e4⟩
  · rw [h4, e4] at hw; cases hw
  · rw [h4, e4] at hw; cases hw; exact hb

theorem linked_mem {h : Heap} {s : Bool} : ∀ {L : List Nat} {prev head : Option Nat}, Linked h s prev L head →
    ∀ w ∈ L, ∃ x, h.uni w = some x
  | [], _, _, _, w, hw => by simp at hw
  | v :: L, _, _, ⟨_, u, h2, _, h4⟩, w, hw => by
    rcases List.mem_cons.mp hw with rfl | hw
    · exact ⟨u, h2⟩
    · exact linked_mem h4 w hw

theorem Ex.addz_self (X : Ex) (s : Bool) (v : Nat) : (X.addz s v).z s v = true := by
  simp [Ex.addz, updB_self, upd_self]
theorem Ex.addz_ne (X : Ex) {s t : Bool} {v w : Nat} (h : ¬ (t = s ∧ w = v)) : (X.addz s v).z t w = X.z t w := by
  simp only [Ex.addz]
  by_cases e : t = s
  · subst e
    rw [updB_self, upd_ne _ _ fun e => h ⟨rfl, e⟩]
  · rw [updB_ne _ _ e]

theorem B_addz (h : Heap) (X : Ex) (s : Bool) (v : Nat) (t : Bool) (w : Nat) :
    B h (X.addz s v) t w = if t = s ∧ w = v then none else B h X t w := by
  by_cases e : t = s ∧ w = v
  · rw [if_pos e, e.1, e.2, B, Ex.addz_self]; rfl
  · rw [if_neg e, B, Ex.addz_ne X e]; rfl

theorem cB_addz {N : Nat} {h h' : Heap} {X : Ex} {s : Bool} {v p : Nat} (hv : v < N) (hb : B h X s v = some p)
    (he : ∀ t w, B h' (X.addz s v) t w = if t = s ∧ w = v then none else B h X t w) (q : Nat) :
    cB N h' (X.addz s v) q + (if q = p then 1 else 0) = cB N h X q := by
  have := sum_change (f := tB h X q) (f' := tB h' (X.addz s v) q) hv (fun k hk => by
    unfold tB
    have hh : ∀ t, B h' (X.addz s v) t k = B h X t k := fun t => by rw [he, if_neg fun h => hk h.2]
    rw [hh, hh])
  unfold cB
  have h2 : tB h X q v = tB h' (X.addz s v) q v + (if q = p then 1 else 0) := by
    unfold tB
    rw [he, he]
    have e1 : (some p = some q) ↔ q = p := by simp [eq_comm]
    cases s
    · simp only [and_self, if_true, reduceCtorEq, if_false, Bool.true_eq_false, false_and, hb, e1]
      omega
    · simp only [and_self, if_true, reduceCtorEq, if_false, Bool.false_eq_true, false_and, hb, e1]
      omega
  omega

theorem unrefSide_ok {N n : Nat} {T : Nat → Bool} {f : Nat → Heap → R Heap} (hf : UnrefC N T n f) {h : Heap} {X : Ex} {ext eU : Nat → Nat}
    {s : Bool} {v : Nat} (I : Inv N T h X ext eU) {u : Unif} (hu : h.uni v = some u) (hz : X.z s v = false) (P : Prot h X ext) (hn : lc N h X ≤ n) :
    Tot (unrefSide f s v h) fun h' => Inv N T h' (X.addz s v) ext eU ∧ EvoS T s v h h' := by
  have hvN := I.ltU hu
  unfold unrefSide
  rw [getUni_ok hu, ok_bind]
  cases hb : u.basis s with
  | none => exact absurd hb (I.att v u s hu hz)
  | some p =>
  have hB : B h X s v = some p := by
    rw [B, hz, basisOf_some hu, hb]; rfl
  obtain ⟨o, ho, hor, hzp⟩ := I.basis_live hB
  obtain ⟨L, hL, hnd, hmem⟩ := I.lists p o ho s
  obtain ⟨A, C, rfl⟩ := List.append_of_mem ((hmem v).mpr hB)
  obtain ⟨nb1, nb2⟩ := linked_nbrs hL hu
  have hlm := linked_mem hL
  have nodup := hnd
  rw [List.nodup_append] at nodup
  obtain ⟨nA, nC, hd⟩ := nodup
  have nC' := List.nodup_cons.mp nC
  have vA : v ∉ A := fun hA => hd v hA v List.mem_cons_self rfl
  simp only
  refine Tot.bind (nbr_upd (h := h) (u.next s) (fun x => { x with prev := updB x.prev s (u.prev s) })
    (fun w hw => hlm w (by simp [nb1 w hw]))) fun h1 _ ⟨o1, u1⟩ => ?_
  have hu1 : h1.uni v = some u := by
    rw [u1, hu, Option.map_some, if_neg]
    intro e; exact nC'.1 (nb1 v e)
  rw [getUni_ok hu1, ok_bind]
  refine Tot.bind (nbr_upd (h := h1) (u.prev s) (fun x => { x with next := updB x.next s (u.next s) })
    (fun w hw => by
      obtain ⟨x, hx⟩ := hlm w (by simp [nb2 w hw])
      exact ⟨_, by rw [u1, hx]; rfl⟩)) fun h2 _ ⟨o2, u2⟩ => ?_
  have hu2 : h2.uni v = some u := by
    rw [u2, hu1, Option.map_some, if_neg]
    intro e; exact vA (nb2 v e)
  rw [getUni_ok hu2, ok_bind, hb]
  have ho2 : h2.obj p = some o := by rw [o2, o1, ho]
  simp only
  rw [getObj_ok ho2, ok_bind]
  -- the neighbours
  have tw : ∀ w x, h.uni w = some x → ∃ x', h2.uni w = some x' ∧ x'.basis = x.basis ∧
      (∀ t, x'.prev t = if t = s ∧ u.next s = some w then u.prev s else x.prev t) ∧
      (∀ t, x'.next t = if t = s ∧ u.prev s = some w then u.next s else x.next t) := by
    intro w x hx
    refine ⟨_, by rw [u2, u1, hx, Option.map_some, Option.map_some], ?_, fun t => ?_, fun t => ?_⟩
    · by_cases e1 : u.next s = some w <;> by_cases e2 : u.prev s = some w <;> simp [e1, e2]
    · by_cases e1 : u.next s = some w <;> by_cases e2 : u.prev s = some w <;> by_cases e3 : t = s <;>
        simp [e1, e2, e3, updB]
    · by_cases e1 : u.next s = some w <;> by_cases e2 : u.prev s = some w <;> by_cases e3 : t = s <;>
        simp [e1, e2, e3, updB]
  have tn : ∀ w, h.uni w = none → h2.uni w = none := by
    intro w hw; rw [u2, u1, hw]; rfl
  generalize hh3 : (if o.list s = some v then h2.setObj p { o with list := updB o.list s (u.next s) } else h2) = h3
  -- description of `h3`
  have uni3 : h3.uni = h2.uni := by rw [← hh3]; split <;> rfl
  have obj3 : ∀ q, q ≠ p → h3.obj q = h.obj q := by
    intro q hq
    rw [← hh3]
    split
    · simp only [Heap.setObj, upd_ne _ _ hq, o2, o1]
    · rw [o2, o1]
  obtain ⟨o3, ho3, r3, t3, s3, w3, y3, l3⟩ : ∃ o3, h3.obj p = some o3 ∧ o3.refs = o.refs ∧ o3.bas = o.bas ∧ o3.son = o.son ∧ o3.own = o.own ∧
      o3.u = o.u ∧ ∀ t, o3.list t = if t = s ∧ o.list s = some v then u.next s else o.list t := by
    rw [← hh3]
    split
    · rename_i e
      refine ⟨{ o with list := updB o.list s (u.next s) }, by simp only [Heap.setObj, upd_self], rfl, rfl, rfl, rfl, rfl,
        fun t => ?_⟩
      by_cases e3 : t = s <;> simp [e, e3, updB]
    · rename_i e
      exact ⟨o, ho2, rfl, rfl, rfl, rfl, rfl, fun t => by simp [e]⟩
  have b3 : ∀ t w, basisOf h3 t w = basisOf h t w := by
    intro t w
    cases hw : h.uni w with
    | none => simp [basisOf, uni3, tn w hw, hw]
    | some x =>
      obtain ⟨x', e1, e2, _⟩ := tw w x hw
      rw [basisOf_some (h := h3) (by rw [uni3]; exact e1), basisOf_some hw, e2]
  have f3 : ∀ q, fields h3 q = fields h q := by
    intro q
    by_cases e : q = p
    · subst e; rw [fields_some ho3, fields_some ho, s3, w3]
    · unfold fields; rw [obj3 q e]
  have w3' : ∀ q, ownedOf h3 q = ownedOf h q := by
    intro q
    by_cases e : q = p
    · subst e; rw [ownedOf_some ho3, ownedOf_some ho, y3]
    · unfold ownedOf; rw [obj3 q e]
  have cF3 : ∀ q, cF N h3 (X.addz s v) q = cF N h X q := by
    intro q; unfold cF F; simp only [f3]; rfl
  have cU3 : ∀ q, cU N h3 (X.addz s v) q = cU N h X q := by
    intro q; unfold cU U; simp only [w3']; rfl
  have B3 : ∀ t w, B h3 (X.addz s v) t w = if t = s ∧ w = v then none else B h X t w := by
    intro t w
    rw [B_addz]
    unfold B; rw [b3]
  have cB3 := cB_addz (h' := h3) hvN hB B3
  have I3 : Inv N T h3 (X.addz s v) (ad ext p) eU := by
    refine ⟨fun q hq => ⟨?_, ?_⟩, fun q oq hq => ?_, fun q hq => ?_, fun q hq => ?_, fun w => ?_, fun q oq hq => ?_,
      fun q oq hq t => ?_, fun q oq hq => ?_, fun q q' hT hq => ?_, fun q oq hq hT => ?_, fun w t q hq => ?_,
      fun w x t hw hzw => ?_⟩
    · have := I.lt ho
      rw [obj3 q (by omega)]; exact (I.bnd q hq).1
    · rw [uni3]; exact tn q (I.bnd q hq).2
    · have e : oq.refs = ext q + cF N h X q + cB N h X q := by
        by_cases e : q = p
        · subst e
          rw [ho3] at hq; cases hq
          rw [r3]; exact I.refs _ o ho
        · rw [obj3 q e] at hq; exact I.refs q oq hq
      have := cB3 q
      rw [cF3]
      unfold ad
      omega
    · have e : q ≠ p := by rintro rfl; rw [ho3] at hq; cases hq
      rw [obj3 q e] at hq
      have := cB3 q
      have := I.dead q hq
      rw [cF3]
      unfold ad
      omega
    · obtain ⟨oq, e1, e2⟩ := I.zomb q hq
      have e : q ≠ p := by rintro rfl; rw [ho] at e1; cases e1; omega
      exact ⟨oq, by rw [obj3 q e, e1], e2⟩
    · rw [cU3, ← I.uni w, uni3]
      cases hw : h.uni w with
      | none => rw [tn w hw]
      | some x =>
        obtain ⟨x', e1, _⟩ := tw w x hw
        rw [e1]; rfl
    · rw [f3]
      by_cases e : q = p
      · subst e
        rw [ho3] at hq; cases hq
        rw [r3]; exact I.compl _ o ho
      · rw [obj3 q e] at hq; exact I.compl q oq hq
    · by_cases e : q = p ∧ t = s
      · obtain ⟨rfl, rfl⟩ := e
        rw [ho3] at hq; cases hq
        refine ⟨A ++ C, ?_, ?_, fun w => ?_⟩
        · rw [l3]
          have := linked_unlink (h' := h3) hnd hL hu (fun w x hx => by
            obtain ⟨x', e1, e2, e3, e4⟩ := tw w x hx
            refine ⟨x', by rw [uni3]; exact e1, ?_, ?_⟩
            · rw [e3 t]; simp
            · rw [e4 t]; simp)
          by_cases e : o.list t = some v
          · rw [if_pos ⟨rfl, e⟩]; rw [if_pos e] at this; exact this
          · rw [if_neg fun h => e h.2]; rw [if_neg e] at this; exact this
        · rw [List.nodup_append]
          exact ⟨nA, nC'.2, fun a ha b hb => hd a ha b (List.mem_cons_of_mem _ hb)⟩
        · rw [B3]
          by_cases e : w = v
          · subst e
            simp [vA, nC'.1]
          · rw [if_neg fun h => e h.2, ← hmem w]
            simp [e]
      · have hq' : ∃ oq', h.obj q = some oq' ∧ oq.list t = oq'.list t := by
          by_cases e1 : q = p
          · subst e1
            rw [ho3] at hq; cases hq
            exact ⟨o, ho, by rw [l3, if_neg fun h => e ⟨rfl, h.1⟩]⟩
          · rw [obj3 q e1] at hq; exact ⟨oq, hq, rfl⟩
        obtain ⟨oq', hq', el⟩ := hq'
        obtain ⟨L', g1, g2, g3⟩ := I.lists q oq' hq' t
        refine ⟨L', ?_, g2, fun w => ?_⟩
        · rw [el]
          refine linked_congr (fun w hw x hx => ?_) g1
          obtain ⟨x', e1, e2, e3, e4⟩ := tw w x hx
          refine ⟨x', by rw [uni3]; exact e1, ?_, ?_⟩
          · rw [e3, if_neg]
            rintro ⟨rfl, h2⟩
            have hq2 := (g3 w).mp hw
            have := (hmem w).mp (by simp [nb1 w h2])
            rw [this] at hq2; cases hq2
            exact e ⟨rfl, rfl⟩
          · rw [e4, if_neg]
            rintro ⟨rfl, h2⟩
            have hq2 := (g3 w).mp hw
            have := (hmem w).mp (by simp [nb2 w h2])
            rw [this] at hq2; cases hq2
            exact e ⟨rfl, rfl⟩
        · rw [g3, B3]
          by_cases e2 : t = s ∧ w = v
          · rw [if_pos e2, e2.1, e2.2, hB]
            simp only [Option.some.injEq, reduceCtorEq, iff_false]
            rintro rfl; exact e ⟨rfl, e2.1⟩
          · rw [if_neg e2]
    · by_cases e : q = p
      · subst e
        rw [ho3] at hq; cases hq
        rw [t3]; exact I.ty _ o ho
      · rw [obj3 q e] at hq; exact I.ty q oq hq
    · rw [f3] at hq; exact I.tyF q q' hT hq
    · by_cases e : q = p
      · subst e
        rw [ho3] at hq; cases hq
        rw [y3]; exact I.tyU _ o ho hT
      · rw [obj3 q e] at hq; exact I.tyU q oq hq hT
    · rw [B3] at hq
      by_cases e : t = s ∧ w = v
      · rw [if_pos e] at hq; cases hq
      · rw [if_neg e] at hq; exact I.tyB w t q hq
    · by_cases e : t = s ∧ w = v
      · rw [e.1, e.2, Ex.addz_self] at hzw; cases hzw
      · rw [Ex.addz_ne X e] at hzw
        rw [uni3] at hw
        cases hw' : h.uni w with
        | none => rw [tn w hw'] at hw; cases hw
        | some x0 =>
          obtain ⟨x', e1, e2, _⟩ := tw w x0 hw'
          rw [e1] at hw; cases hw
          rw [e2]; exact I.att w x0 t hw' hzw
  have hlc3 : lc N h3 (X.addz s v) ≤ n := by
    refine (lc_mono (h := h) (X := X) (fun q hq => ?_) fun _ h => h).trans hn
    by_cases e : q = p
    · rw [e, ho]; rfl
    · rw [obj3 q e] at hq; exact hq
  have P3 : Prot h3 (X.addz s v) ext := by
    intro q hq
    have := P q hq
    clear hq
    induction this with
    | root h1 => exact .root h1
    | @float a oa h1 h2 h3 =>
      have e : a ≠ p := by rintro rfl; rw [ho] at h1; cases h1; omega
      exact .float (by rw [obj3 a e]; exact h1) h2 h3
    | step h1 h2 h3 h4 ih => exact .step ih h2 h3 (by rw [f3]; exact h4)
  refine Tot.bind (hf h3 _ ext eU p (I.tyB v s p hB) I3 P3 hlc3) fun h4 _ ⟨I4, E4⟩ => ?_
  obtain ⟨u4, hu4, eu4⟩ : ∃ u4, h4.uni v = some u4 ∧ u4 = u := ⟨u, by rw [E4.uni', uni3]; exact hu2, rfl⟩
  rw [getUni_ok hu4, ok_bind]
  refine Tot.pure ⟨⟨fun q hq => ⟨(I4.bnd q hq).1, ?_⟩, fun q oq hq => ?_, fun q hq => ?_, I4.zomb, fun w => ?_, I4.compl,
      fun q oq hq t => ?_, I4.ty, I4.tyF, I4.tyU, fun w t q hq => ?_, fun w x t hw hzw => ?_⟩,
      ⟨fun q oq hq => ?_, fun q oq hq hr => ?_, fun w x hw => ?_, fun q hq => ?_, fun w x hw => ?_, fun x hx => ?_⟩⟩
  · simp only [Heap.setUni]
    have := I4.ltU hu4
    rw [upd_ne _ _ (by omega)]; exact (I4.bnd q hq).2
  all_goals
    have SR : SameRefs h4 (h4.setUni v { u4 with basis := updB u4.basis s none }) (X.addz s v) (X.addz s v) := by
      refine ⟨fun _ => rfl, fun _ => rfl, fun t w => ?_⟩
      unfold B
      rw [basisOf_setUni]
      by_cases e : w = v
      · subst e
        by_cases e' : t = s
        · subst e'; rw [Ex.addz_self]; rfl
        · rw [if_pos rfl, basisOf_some hu4]; simp only [updB_ne _ _ e']
      · rw [if_neg e]
  · rw [SR.cF, SR.cB]; exact I4.refs q oq hq
  · rw [SR.cF, SR.cB]; exact I4.dead q hq
  · rw [SR.cU, ← I4.uni w]
    have : ((h4.setUni v { u4 with basis := updB u4.basis s none }).uni w).isSome = (h4.uni w).isSome := by
      simp only [Heap.setUni]
      by_cases e : w = v
      · subst e; rw [upd_self, hu4]; rfl
      · rw [upd_ne _ _ e]
    rw [this]
  · obtain ⟨L', g1, g2, g3⟩ := I4.lists q oq hq t
    refine ⟨L', linked_congr (fun w hw x hx => ?_) g1, g2, fun w => by rw [g3, SR.B]⟩
    simp only [Heap.setUni]
    by_cases e : w = v
    · subst e
      rw [hu4] at hx; cases hx
      exact ⟨_, upd_self _ _ _, rfl, rfl⟩
    · exact ⟨x, by rw [upd_ne _ _ e, hx], rfl, rfl⟩
  · rw [SR.B] at hq; exact I4.tyB w t q hq
  · by_cases e : w = v
    · subst e
      simp only [Heap.setUni, upd_self] at hw
      cases hw
      by_cases e' : t = s
      · subst e'; rw [Ex.addz_self] at hzw; cases hzw
      · simp only [updB_ne _ _ e']
        exact I4.att w u4 t hu4 hzw
    · simp only [Heap.setUni, upd_ne _ _ e] at hw
      exact I4.att w x t hw hzw
  · obtain ⟨o4, e1, e2, e3, e4, e7, e5, e6⟩ := E4.obj q oq hq
    by_cases e : q = p
    · subst e
      rw [ho3] at e1; cases e1
      exact ⟨o, ho, e2.trans s3, e3.trans w3, e4.trans y3, e7.trans t3, by omega, fun h => by have := e6 h; omega⟩
    · rw [obj3 q e] at e1
      exact ⟨o4, e1, e2, e3, e4, e7, e5, e6⟩
  · have e : q ≠ p := by rintro rfl; rw [ho] at hq; cases hq; omega
    exact E4.float q oq (by rw [obj3 q e, hq]) hr
  · have key : ∀ w x, h4.uni w = some x → ∃ x0, h.uni w = some x0 ∧ x.basis = x0.basis := by
      intro w x hw
      obtain ⟨x3, e1, e2⟩ := E4.uni w x hw
      rw [uni3] at e1
      cases hw' : h.uni w with
      | none => rw [tn w hw'] at e1; cases e1
      | some x0 =>
        obtain ⟨x', e3, e4, _⟩ := tw w x0 hw'
        rw [e3] at e1; cases e1
        exact ⟨x0, rfl, e2.trans e4⟩
    by_cases e : w = v
    · subst e
      simp only [Heap.setUni, upd_self] at hw
      cases hw
      obtain ⟨x0, e1, e2⟩ := key w u4 hu4
      exact ⟨x0, e1, by rw [if_pos rfl, e2]⟩
    · simp only [Heap.setUni, upd_ne _ _ e] at hw
      obtain ⟨x0, e1, e2⟩ := key w x hw
      exact ⟨x0, e1, by rw [if_neg e, e2]⟩
  · have e : q ≠ p := by rintro rfl; rw [I.tyB v s q hB] at hq; cases hq
    exact (E4.nc q hq).trans (obj3 q e)
  · by_cases e : w = v
    · subst e; exact ⟨_, upd_self _ _ _⟩
    · obtain ⟨x', e1, _⟩ := tw w x hw
      obtain ⟨x4, e4⟩ : ∃ x4, h4.uni w = some x4 := ⟨x', by rw [E4.uni', uni3]; exact e1⟩
      exact ⟨x4, by simp only [Heap.setUni, upd_ne _ _ e]; exact e4⟩
  · rw [hu] at hx; cases hx
    simp only [Heap.setUni, upd_self, eu4]

end H2.RefC
