import Verif.Proof.RefCount2

set_option linter.unusedSectionVars false

namespace H2.RefC

variable {N n : Nat} {T : Nat → Bool} {X : Ex} {ext eU : Nat → Nat} {h : Heap}

/-- a change of the counter only -/
theorem Inv.setRefs {p : Nat} {o : Obj} {r : Nat} {ext' : Nat → Nat} (I : Inv N T h X ext eU) (ho : h.obj p = some o)
    (he : ∀ q, q ≠ p → ext' q = ext q) (hr : r = ext' p + cF N h X p + cB N h X p) (hz : X.zo p = false)
    (hc : 0 < r → none ∉ fields h p) : Inv N T (h.setObj p { o with refs := r }) X ext' eU := by
  have hf : ∀ q, fields (h.setObj p { o with refs := r }) q = fields h q := by
    intro q
    rw [fields_setObj]
    by_cases e : q = p
    · subst e; rw [if_pos rfl, fields_some ho]
    · rw [if_neg e]
  have hu : ∀ q, ownedOf (h.setObj p { o with refs := r }) q = ownedOf h q := by
    intro q
    rw [ownedOf_setObj]
    by_cases e : q = p
    · subst e; rw [if_pos rfl, ownedOf_some ho]
    · rw [if_neg e]
  have SR : SameRefs h (h.setObj p { o with refs := r }) X X := by
    refine ⟨fun q => ?_, fun q => ?_, fun _ _ => rfl⟩
    · unfold F; rw [hf]
    · unfold U; rw [hu]
  have obj' : ∀ q oq, (h.setObj p { o with refs := r }).obj q = some oq →
      (q = p ∧ oq = { o with refs := r }) ∨ (q ≠ p ∧ h.obj q = some oq) := by
    intro q oq hq
    by_cases e : q = p
    · subst e
      simp only [Heap.setObj, upd_self, Option.some.injEq] at hq
      exact .inl ⟨rfl, hq.symm⟩
    · simp only [Heap.setObj, upd_ne _ _ e] at hq
      exact .inr ⟨e, hq⟩
  refine ⟨fun q hq => ⟨?_, (I.bnd q hq).2⟩, fun q oq hq => ?_, fun q hq => ?_, fun q hq => ?_, fun w => ?_,
    fun q oq hq hp => ?_, fun q oq hq s => ?_, fun q oq hq => ?_, fun q q' hT hq => ?_, fun q oq hq hT => ?_, I.tyB, I.att⟩
  · have := I.lt ho
    simp only [Heap.setObj]
    rw [upd_ne _ _ (by omega)]; exact (I.bnd q hq).1
  · rw [SR.cF, SR.cB]
    rcases obj' q oq hq with ⟨rfl, rfl⟩ | ⟨e, hq⟩
    · exact hr
    · rw [he q e]; exact I.refs q oq hq
  · rw [SR.cF, SR.cB]
    have e : q ≠ p := by
      rintro rfl
      simp [Heap.setObj, upd_self] at hq
    simp only [Heap.setObj, upd_ne _ _ e] at hq
    rw [he q e]; exact I.dead q hq
  · have e : q ≠ p := by rintro rfl; rw [hz] at hq; cases hq
    obtain ⟨oq, h1, h2⟩ := I.zomb q hq
    exact ⟨oq, by simp only [Heap.setObj, upd_ne _ _ e]; exact h1, h2⟩
  · rw [SR.cU]; exact I.uni w
  · rw [hf]
    rcases obj' q oq hq with ⟨rfl, rfl⟩ | ⟨e, hq⟩
    · exact hc hp
    · exact I.compl q oq hq hp
  · have hl : ∃ o', h.obj q = some o' ∧ oq.list s = o'.list s := by
      rcases obj' q oq hq with ⟨rfl, rfl⟩ | ⟨e, hq⟩
      · exact ⟨o, ho, rfl⟩
      · exact ⟨oq, hq, rfl⟩
    obtain ⟨o', h1, h2⟩ := hl
    obtain ⟨L, g1, g2, g3⟩ := I.lists q o' h1 s
    exact ⟨L, by rw [h2]; exact linked_congr (h := h) (fun w _ x hx => ⟨x, hx, rfl, rfl⟩) g1, g2, g3⟩
  · rcases obj' q oq hq with ⟨rfl, rfl⟩ | ⟨e, hq⟩
    · exact I.ty q o ho
    · exact I.ty q oq hq
  · rw [hf] at hq; exact I.tyF q q' hT hq
  · rcases obj' q oq hq with ⟨rfl, rfl⟩ | ⟨e, hq⟩
    · exact I.tyU q o ho hT
    · exact I.tyU q oq hq hT

theorem Inv.list_none {p : Nat} {o : Obj} (I : Inv N T h X ext eU) (ho : h.obj p = some o) (hr : o.refs = 0) (s : Bool) :
    o.list s = none := by
  obtain ⟨L, g1, g2, g3⟩ := I.lists p o ho s
  cases L with
  | nil => exact g1
  | cons v L =>
    have hB := (g3 v).mp List.mem_cons_self
    obtain ⟨u, hu, _⟩ := g1.2
    have := cB_pos (I.ltU hu) hB
    have := I.refs p o ho
    omega

theorem cF_addo {p : Nat} (hp : p < N) (hz : X.zo p = false) (hz' : X.zp p = false) (q : Nat) :
    cF N h (X.addo p) q + (fields h p).count (some q) = cF N h X q := by
  have := sum_change (f := fun k => (F h X k).count (some q)) (f' := fun k => (F h (X.addo p) k).count (some q)) hp
    (fun k hk => by simp only [F, Ex.addo, upd_ne _ _ hk])
  have e1 : F h (X.addo p) p = [] := by simp [F, Ex.addo, upd_self]
  have e2 : F h X p = fields h p := by simp [F, hz, hz']
  rw [e1, e2] at this
  unfold cF
  simp only [List.count_nil] at this
  omega

theorem cU_addo {p : Nat} (hp : p < N) (hz : X.zo p = false) (v : Nat) :
    cU N h (X.addo p) v + (if ownedOf h p = some v then 1 else 0) = cU N h X v := by
  have := sum_change (f := fun k => if U h X k = some v then 1 else 0)
    (f' := fun k => if U h (X.addo p) k = some v then 1 else 0) hp
    (fun k hk => by
      have : U h (X.addo p) k = U h X k := by simp only [U, Ex.addo, upd_ne _ _ hk]
      rw [this])
  have e1 : U h (X.addo p) p = none := by simp [U, Ex.addo, upd_self]
  have e2 : U h X p = ownedOf h p := by simp [U, hz]
  simp only [e1, e2] at this
  unfold cU
  simpa using this

theorem Ex.addo_zo (X : Ex) (p q : Nat) : (X.addo p).zo q = true ↔ q = p ∨ X.zo q = true := by
  by_cases e : q = p
  · subst e; simp [Ex.addo, upd_self]
  · simp [Ex.addo, upd_ne _ _ e, e]

/-- an object that is about to be deleted gives its pointers away -/
theorem Inv.zombify {p : Nat} {o : Obj} (I : Inv N T h X ext eU) (ho : h.obj p = some o) (hr : o.refs = 0)
    (hz : X.zo p = false) (hz' : X.zp p = false) : Inv N T h (X.addo p) (adl ext (fields h p)) (ado eU o.u) := by
  have hp := I.lt ho
  refine ⟨I.bnd, fun q oq hq => ?_, fun q hq => ?_, fun q hq => ?_, fun w => ?_, I.compl, I.lists, I.ty, I.tyF, I.tyU,
    I.tyB, I.att⟩
  · have := I.refs q oq hq
    have := cF_addo (h := h) hp hz hz' q
    have : cB N h (X.addo p) q = cB N h X q := rfl
    unfold adl; omega
  · have := I.dead q hq
    have := cF_addo (h := h) hp hz hz' q
    have : cB N h (X.addo p) q = cB N h X q := rfl
    unfold adl; omega
  · rcases (Ex.addo_zo X p q).mp hq with rfl | hq
    · exact ⟨o, ho, hr⟩
    · exact I.zomb q hq
  · have := I.uni w
    have e := cU_addo (h := h) hp hz w
    rw [ownedOf_some ho] at e
    unfold ado; omega

theorem cF_free {p : Nat} (q : Nat) (hz : X.zo p = false) :
    cF N { h with obj := upd h.obj p none } X q = cF N h (X.addo p) q := by
  unfold cF
  refine Finset.sum_congr rfl fun k _ => ?_
  congr 1
  by_cases e : k = p
  · subst e; simp [F, fields, Ex.addo, upd_self, hz]
  · simp only [F, fields, Ex.addo, upd_ne _ _ e]

theorem cU_free {p : Nat} (v : Nat) (hz : X.zo p = false) :
    cU N { h with obj := upd h.obj p none } X v = cU N h (X.addo p) v := by
  unfold cU
  refine Finset.sum_congr rfl fun k _ => ?_
  have : U { h with obj := upd h.obj p none } X k = U h (X.addo p) k := by
    by_cases e : k = p
    · subst e; simp [U, ownedOf, Ex.addo, upd_self, hz]
    · simp only [U, ownedOf, Ex.addo, upd_ne _ _ e]
  rw [this]

theorem Inv.free {p : Nat} {o : Obj} (I : Inv N T h (X.addo p) ext eU) (ho : h.obj p = some o) (hr : o.refs = 0)
    (hz : X.zo p = false) : Inv N T { h with obj := upd h.obj p none } X ext eU := by
  have obj' : ∀ q oq, upd h.obj p none q = some oq → q ≠ p ∧ h.obj q = some oq := by
    intro q oq hq
    by_cases e : q = p
    · subst e; simp [upd_self] at hq
    · rw [upd_ne _ _ e] at hq; exact ⟨e, hq⟩
  have cBe : ∀ q, cB N { h with obj := upd h.obj p none } X q = cB N h (X.addo p) q := fun _ => rfl
  refine ⟨fun q hq => ⟨?_, (I.bnd q hq).2⟩, fun q oq hq => ?_, fun q hq => ?_, fun q hq => ?_, fun w => ?_,
    fun q oq hq hp => ?_, fun q oq hq s => ?_, fun q oq hq => I.ty q oq (obj' q oq hq).2, fun q q' hT hq => ?_,
    fun q oq hq hT => I.tyU q oq (obj' q oq hq).2 hT, I.tyB, I.att⟩
  · have := I.lt ho
    simp only
    rw [upd_ne _ _ (by omega)]; exact (I.bnd q hq).1
  · rw [cF_free q hz, cBe]
    exact I.refs q oq (obj' q oq hq).2
  · rw [cF_free q hz, cBe]
    by_cases e : q = p
    · subst e
      have := I.refs q o ho
      omega
    · simp only [upd_ne _ _ e] at hq; exact I.dead q hq
  · have e : q ≠ p := by rintro rfl; rw [hz] at hq; cases hq
    obtain ⟨oq, h1, h2⟩ := I.zomb q ((Ex.addo_zo X p q).mpr (.inr hq))
    exact ⟨oq, by simp only [upd_ne _ _ e]; exact h1, h2⟩
  · rw [cU_free w hz]; exact I.uni w
  · have := I.compl q oq (obj' q oq hq).2 hp
    unfold fields at this ⊢
    simp only [upd_ne _ _ (obj' q oq hq).1]
    exact this
  · obtain ⟨L, g1, g2, g3⟩ := I.lists q oq (obj' q oq hq).2 s
    exact ⟨L, linked_congr (h := h) (fun w _ x hx => ⟨x, hx, rfl, rfl⟩) g1, g2, g3⟩
  · by_cases e : q = p
    · subst e; simp [fields, upd_self] at hq
    · refine I.tyF q q' hT ?_
      unfold fields at hq ⊢
      simp only [upd_ne _ _ e] at hq
      exact hq

theorem Inv.freeU {v : Nat} {u : Unif} (hz : ∀ s, X.z s v = false)
    (I : Inv N T h ((X.addz false v).addz true v) ext (ado eU (some v))) (hu : h.uni v = some u) :
    Inv N T { h with uni := upd h.uni v none } X ext eU := by
  have zz : ∀ s, ((X.addz false v).addz true v).z s v = true := by
    intro s
    cases s
    · rw [Ex.addz_ne _ (by simp), Ex.addz_self]
    · rw [Ex.addz_self]
  have zn : ∀ s w, w ≠ v → ((X.addz false v).addz true v).z s w = X.z s w := by
    intro s w hw
    rw [Ex.addz_ne _ (by simp [hw]), Ex.addz_ne _ (by simp [hw])]
  have SR : SameRefs h { h with uni := upd h.uni v none } ((X.addz false v).addz true v) X := by
    refine ⟨fun _ => rfl, fun _ => rfl, fun s w => ?_⟩
    unfold B
    by_cases e : w = v
    · subst e
      rw [hz, zz]
      simp [basisOf, upd_self]
    · rw [zn s w e]
      unfold basisOf
      simp only [upd_ne _ _ e]
  refine ⟨fun q hq => ⟨(I.bnd q hq).1, ?_⟩, fun q oq hq => ?_, fun q hq => ?_, I.zomb, fun w => ?_, I.compl,
      fun q oq hq t => ?_, I.ty, I.tyF, I.tyU, fun w t q hq => ?_, fun w x t hw hzw => ?_⟩
  · simp only
    have := I.ltU hu
    rw [upd_ne _ _ (by omega)]; exact (I.bnd q hq).2
  · rw [SR.cF, SR.cB]; exact I.refs q oq hq
  · rw [SR.cF, SR.cB]; exact I.dead q hq
  · rw [SR.cU]
    have := I.uni w
    by_cases e : w = v
    · subst e
      rw [hu] at this
      simp [ado] at this
      simp [upd_self]
      omega
    · simp only [upd_ne _ _ e]
      have e' : ¬ (some v = some w) := fun h => e (Option.some.inj h).symm
      rw [this]
      simp only [ado, if_neg e', Nat.add_zero]
  · obtain ⟨L, g1, g2, g3⟩ := I.lists q oq hq t
    refine ⟨L, linked_congr (fun w hw x hx => ⟨x, ?_, rfl, rfl⟩) g1, g2, fun w => by rw [g3, SR.B]⟩
    have e : w ≠ v := by
      rintro rfl
      have := (g3 w).mp hw
      rw [B, zz] at this; cases this
    simp only [upd_ne _ _ e]; exact hx
  · rw [SR.B] at hq; exact I.tyB w t q hq
  · by_cases e : w = v
    · subst e; simp [upd_self] at hw
    · simp only [upd_ne _ _ e] at hw
      exact I.att w x t hw (by rw [zn t w e]; exact hzw)

theorem Safe.addz {s : Bool} {v p : Nat} (hs : Safe h X ext p) : Safe h (X.addz s v) ext p := by
  induction hs with
  | root h1 => exact .root h1
  | float h1 h2 h3 => exact .float h1 h2 h3
  | step h1 h2 h3 h4 ih => exact .step ih h2 h3 h4

theorem delUniform_ok {f : Nat → Heap → R Heap} (hf : UnrefC N T n f) {v : Nat} (hz : ∀ s, X.z s v = false)
    (I : Inv N T h X ext (ado eU (some v))) (P : Prot h X ext) (hn : lc N h X ≤ n) :
    Tot (delUniform f v h) fun h' => Inv N T h' X ext eU ∧ Evo h h' := by
  obtain ⟨u, hu⟩ := I.liveU (v := v) (by simp [ado])
  refine Tot.bind (unrefSide_ok hf (s := false) I hu (hz false) P hn) fun h1 _ ⟨I1, E1⟩ => ?_
  obtain ⟨u1, hu1⟩ := E1.uni' v u hu
  have hn1 : lc N h1 (X.addz false v) ≤ n := by
    refine (lc_mono (h := h) (X := X) (fun q hq => ?_) fun _ h => h).trans hn
    obtain ⟨o, ho⟩ := Option.isSome_iff_exists.mp hq
    obtain ⟨o', h', _⟩ := E1.obj q o ho
    rw [h']; rfl
  have P1 : Prot h1 (X.addz false v) ext := fun q hq =>
    Safe.evo E1.obj E1.float I1 (fun _ => le_rfl) (Safe.addz (P q hq))
  refine Tot.bind (unrefSide_ok hf (s := true) I1 hu1 (by rw [Ex.addz_ne _ (by simp)]; exact hz true) P1 hn1)
    fun h2 _ ⟨I2, E2⟩ => ?_
  obtain ⟨u2, hu2⟩ := E2.uni' v u1 hu1
  unfold Heap.freeUni
  rw [getUni_ok hu2, ok_bind]
  refine Tot.pure ⟨Inv.freeU hz I2 hu2, ⟨fun q o2 h2 => ?_, fun q o ho hr => ?_, fun w x hw => ?_⟩⟩
  · obtain ⟨o', h2, a1, a2, a3, a6, a5, a4⟩ := E2.obj q o2 h2
    obtain ⟨o, h3, b1, b2, b3, b6, b5, b4⟩ := E1.obj q o' h2
    exact ⟨o, h3, a1.trans b1, a2.trans b2, a3.trans b3, a6.trans b6, a5.trans b5, fun h => b4 (a4 h)⟩
  · obtain ⟨o1, h3⟩ := E1.float q o ho hr
    obtain ⟨o', h4, _, _, _, _, h5, _⟩ := E1.obj q o1 h3
    rw [ho] at h4; cases h4
    exact E2.float q o1 h3 (by omega)
  · have e : w ≠ v := by rintro rfl; simp [upd_self] at hw
    simp only [upd_ne _ _ e] at hw
    obtain ⟨x1, g1, g2⟩ := E2.uni w x hw
    obtain ⟨x0, g3, g4⟩ := E1.uni w x1 g1
    rw [if_neg e] at g2 g4
    exact ⟨x0, g3, g2.trans g4⟩

theorem adl_append (ext : Nat → Nat) (a b : List (Option Nat)) : adl ext (a ++ b) = adl (adl ext b) a := by
  funext q; simp only [adl, List.count_append]; omega

/-- the heap after deletion of `p` -/
structure EvoD (p : Nat) (h h' : Heap) : Prop where
  obj : ∀ q o', h'.obj q = some o' → ∃ o, h.obj q = some o ∧ o'.son = o.son ∧ o'.own = o.own ∧ o'.u = o.u ∧
    o'.bas = o.bas ∧ o'.refs ≤ o.refs ∧ (o'.refs = 0 → o.refs = 0)
  float : ∀ q o, q ≠ p → h.obj q = some o → o.refs = 0 → ∃ o', h'.obj q = some o'
  uni : ∀ v u', h'.uni v = some u' → ∃ u, h.uni v = some u ∧ u'.basis = u.basis
  gone : h'.obj p = none

theorem Evo.free {h h' : Heap} (p : Nat) (e : Evo h h') : EvoD p h { h' with obj := upd h'.obj p none } := by
  refine ⟨fun q o' hq => ?_, fun q o hp hq hr => ?_, e.uni, upd_self _ _ _⟩
  · by_cases c : q = p
    · subst c; simp [upd_self] at hq
    · simp only [upd_ne _ _ c] at hq; exact e.obj q o' hq
  · obtain ⟨o', h1⟩ := e.float q o hq hr
    exact ⟨o', by simp only [upd_ne _ _ hp]; exact h1⟩

theorem delObj_okC {f : Nat → Heap → R Heap} (hf : UnrefC N T n f) {p : Nat} {o : Obj} (hT : T p = true)
    (I : Inv N T h X ext eU) (ho : h.obj p = some o) (hr : o.refs = 0) (hz : X.zo p = false) (hc : none ∉ fields h p)
    (hz' : X.zp p = false) (P : Prot h (X.addo p) ext) (hn : lc N h X ≤ n + 1) :
    Tot (delObj f p h) fun h' => Inv N T h' X ext eU ∧ EvoD p h h' ∧ (∀ q, T q = false → h'.obj q = h.obj q) ∧
      h'.uni = h.uni := by
  have hp := I.lt ho
  unfold delObj
  rw [getObj_ok ho, ok_bind, cassert_true (by simpa using hr), ok_bind,
    cassert_true (by simpa using I.list_none ho hr false), ok_bind,
    cassert_true (by simpa using I.list_none ho hr true), ok_bind]
  have Z := I.zombify ho hr hz hz'
  have ef := fields_some ho
  rw [I.tyU p o ho hT, ef, adl_append] at Z
  have eado : ado eU none = eU := by funext v; simp [ado]
  rw [eado] at Z
  have hlc : lc N h (X.addo p) ≤ n := by
    have := lc_addo (h := h) (X := X) hp (by rw [ho]; rfl) hz
    omega
  have hnone : none ∉ o.son ∧ none ∉ o.own := by
    rw [ef] at hc; simpa using hc
  have hty : ∀ q, some q ∈ o.son ++ o.own → T q = true := fun q hq => I.tyF p q hT (by rw [ef]; exact hq)
  refine Tot.bind (unrefList_okC hf o.son hnone.1 (fun q hq => hty q (by simp [hq])) Z (P.mono (le_adl _ _)) hlc) fun h1 _ ⟨I1, E1⟩ => ?_
  rw [I.tyU p o ho hT]
  simp only [delOwned, pure_bind]
  refine Tot.bind (unrefList_okC hf o.own hnone.2 (fun q hq => hty q (by simp [hq])) I1
    (P.evo E1.toEvo I1 (le_adl _ _)) (E1.lc.trans hlc))
    fun h2 _ ⟨I2, E2⟩ => ?_
  obtain ⟨o2, ho2, hr2⟩ := I2.zomb p ((Ex.addo_zo X p p).mpr (.inl rfl))
  unfold Heap.freeObj
  rw [getObj_ok ho2, ok_bind]
  have E := E1.trans E2
  refine Tot.pure ⟨I2.free ho2 hr2 hz, E.toEvo.free p, fun q hq => ?_, E.uni'⟩
  have e : q ≠ p := by rintro rfl; rw [hT] at hq; cases hq
  simp only [upd_ne _ _ e]
  exact E.nc q hq

theorem delObj_ok {f : Nat → Heap → R Heap} (hf : UnrefOk N T n f) (hg : UnrefC N T n f) {p : Nat} {o : Obj}
    (hX : ∀ s v, X.z s v = false)
    (I : Inv N T h X ext eU) (ho : h.obj p = some o) (hr : o.refs = 0) (hz : X.zo p = false) (hc : none ∉ fields h p)
    (hz' : X.zp p = false) (P : Prot h (X.addo p) ext) (hn : lc N h X ≤ n + 1) : Tot (delObj f p h) fun h' => Inv N T h' X ext eU ∧ EvoD p h h' := by
  have hp := I.lt ho
  unfold delObj
  rw [getObj_ok ho, ok_bind, cassert_true (by simpa using hr), ok_bind,
    cassert_true (by simpa using I.list_none ho hr false), ok_bind,
    cassert_true (by simpa using I.list_none ho hr true), ok_bind]
  have Z := I.zombify ho hr hz hz'
  have ef := fields_some ho
  rw [ef, adl_append] at Z
  have hlc : lc N h (X.addo p) ≤ n := by
    have := lc_addo (h := h) (X := X) hp (by rw [ho]; rfl) hz
    omega
  have hnone : none ∉ o.son ∧ none ∉ o.own := by
    rw [ef] at hc; simpa using hc
  refine Tot.bind (unrefList_ok hf o.son hnone.1 (X := X.addo p) hX Z (P.mono (le_adl _ _)) hlc) fun h1 _ ⟨I1, E1⟩ => ?_
  have D : Tot (delOwned f o.u h1) fun h' => Inv N T h' (X.addo p) (adl ext o.own) eU ∧ Evo h1 h' := by
    cases hu : o.u with
    | none =>
      rw [hu] at I1
      have eado : ado eU none = eU := by funext v; simp [ado]
      rw [eado] at I1
      exact Tot.pure ⟨I1, Evo.refl _⟩
    | some v =>
      rw [hu] at I1
      exact delUniform_ok hg (X := X.addo p) (fun s => hX s v) I1 ((P.mono (le_adl _ _)).evo E1 I1 (fun _ => le_rfl))
        (E1.lc.trans hlc)
  refine Tot.bind D fun h2 _ ⟨I2, E2⟩ => ?_
  refine Tot.bind (unrefList_ok hf o.own hnone.2 (X := X.addo p) hX I2 (P.evo (E1.trans E2) I2 (le_adl _ _))
    ((E1.trans E2).lc.trans hlc)) fun h3 _ ⟨I3, E3⟩ => ?_
  obtain ⟨o3, ho3, hr3⟩ := I3.zomb p ((Ex.addo_zo X p p).mpr (.inl rfl))
  unfold Heap.freeObj
  rw [getObj_ok ho3, ok_bind]
  exact Tot.pure ⟨I3.free ho3 hr3 hz, ((E1.trans E2).trans E3).free p⟩

theorem lc_pos {p : Nat} {o : Obj} (I : Inv N T h X ext eU) (ho : h.obj p = some o) (hz : X.zo p = false) :
    0 < lc N h X := by
  have := lc_addo (h := h) (X := X) (I.lt ho) (by rw [ho]; rfl) hz
  omega

/-- giving up one reference -/
theorem Inv.dec {p : Nat} (I : Inv N T h X (ad ext p) eU) :
    ∃ o, h.obj p = some o ∧ 0 < o.refs ∧ X.zo p = false ∧ none ∉ fields h p ∧
      Inv N T (h.setObj p { o with refs := o.refs - 1 }) X ext eU := by
  obtain ⟨o, ho, hr, hz⟩ := I.live (p := p) (by simp [ad])
  refine ⟨o, ho, hr, hz, I.compl p o ho hr, I.setRefs ho (fun q hq => by simp [ad, hq]) ?_ hz fun _ => I.compl p o ho hr⟩
  have := I.refs p o ho
  simp [ad] at this
  omega

theorem Evo.dec {p : Nat} {o : Obj} (ho : h.obj p = some o) (hr : 0 < o.refs) {r : Nat} (hr' : r ≤ o.refs) (h0 : r ≠ 0) :
    Evo h (h.setObj p { o with refs := r }) := by
  refine ⟨fun q oq hq => ?_, fun q oq hq h1 => ?_, fun v u hu => ⟨u, hu, rfl⟩⟩
  · by_cases e : q = p
    · subst e
      simp only [Heap.setObj, upd_self, Option.some.injEq] at hq
      subst hq
      exact ⟨o, ho, rfl, rfl, rfl, rfl, hr', fun h => absurd h h0⟩
    · simp only [Heap.setObj, upd_ne _ _ e] at hq
      exact ⟨oq, hq, rfl, rfl, rfl, rfl, le_rfl, id⟩
  · have e : q ≠ p := by rintro rfl; rw [ho] at hq; cases hq; omega
    exact ⟨oq, by simp only [Heap.setObj, upd_ne _ _ e]; exact hq⟩

theorem EvoD.dec {p : Nat} {o : Obj} {r : Nat} {h' : Heap} (ho : h.obj p = some o) (hr : 0 < o.refs)
    (E : EvoD p (h.setObj p { o with refs := r }) h') : Evo h h' := by
  refine ⟨fun q oq hq => ?_, fun q oq hq h1 => ?_, E.uni⟩
  · obtain ⟨oq', h1, h2⟩ := E.obj q oq hq
    have e : q ≠ p := by rintro rfl; rw [E.gone] at hq; cases hq
    simp only [Heap.setObj, upd_ne _ _ e] at h1
    exact ⟨oq', h1, h2⟩
  · have e : q ≠ p := by rintro rfl; rw [ho] at hq; cases hq; omega
    exact E.float q oq e (by simp only [Heap.setObj, upd_ne _ _ e]; exact hq) h1

theorem lc_setObj {p : Nat} {o o' : Obj} (ho : h.obj p = some o) : lc N (h.setObj p o') X = lc N h X := by
  unfold lc
  refine Finset.sum_congr rfl fun q _ => ?_
  have : ((h.setObj p o').obj q).isSome = (h.obj q).isSome := by
    by_cases e : q = p
    · subst e; simp [Heap.setObj, upd_self, ho]
    · simp only [Heap.setObj, upd_ne _ _ e]
  rw [this]

theorem Safe.dec {p : Nat} {o : Obj} (I : Inv N T (h.setObj p { o with refs := o.refs - 1 }) X ext eU)
    (ho : h.obj p = some o) (hr : 0 < o.refs) (h0 : o.refs - 1 = 0) {q : Nat} (hs : Safe h X ext q) :
    Safe (h.setObj p { o with refs := o.refs - 1 }) (X.addo p) ext q ∧ q ≠ p := by
  have hp : (h.setObj p { o with refs := o.refs - 1 }).obj p = some { o with refs := o.refs - 1 } := by
    simp [Heap.setObj, upd_self]
  have hc := I.refs p _ hp
  simp only [h0] at hc
  have hf : ∀ q, fields (h.setObj p { o with refs := o.refs - 1 }) q = fields h q := by
    intro q
    rw [fields_setObj]
    by_cases e : q = p
    · subst e; rw [if_pos rfl, fields_some ho]
    · rw [if_neg e]
  have zo : ∀ q, q ≠ p → X.zo q = false → (X.addo p).zo q = false := fun q hq hz => by
    simp only [Ex.addo, upd_ne _ _ hq]; exact hz
  simp only [h0] at I hp hf ⊢
  induction hs with
  | @root a h1 =>
    refine ⟨.root h1, ?_⟩
    rintro rfl; omega
  | @float a oa h1 h2 h3 =>
    have e : a ≠ p := by rintro rfl; rw [ho] at h1; cases h1; omega
    exact ⟨.float (by simp only [Heap.setObj, upd_ne _ _ e]; exact h1) h2 (zo a e h3), e⟩
  | @step a b h1 h2 h3 h4 ih =>
    refine ⟨.step ih.1 (zo a ih.2 h2) h3 (by rw [hf]; exact h4), ?_⟩
    rintro rfl
    obtain ⟨oa, hoa⟩ := fields_live h4
    rw [← hf a] at h4
    obtain ⟨oa', hoa'⟩ := fields_live h4
    have := cF_pos (I.lt hoa') h2 h3 h4
    omega

theorem setObj_live {p q : Nat} {o oq : Obj} (hq : h.obj q = some oq) : ∃ o', (h.setObj p o).obj q = some o' := by
  by_cases e : q = p
  · subst e; exact ⟨o, upd_self _ _ _⟩
  · exact ⟨oq, by simp only [Heap.setObj, upd_ne _ _ e]; exact hq⟩

theorem unref_okC (N : Nat) (T : Nat → Bool) : ∀ n, UnrefC N T n (unref (n + 1))
  | n, h, X, ext, eU, p, hT, I, P, hn => by
    obtain ⟨o, ho, hr, hz, hc, I1⟩ := I.dec
    simp only [unref]
    rw [getObj_ok ho, ok_bind, cassert_true (by simpa using hr), ok_bind]
    by_cases h0 : o.refs - 1 = 0
    · rw [if_pos h0]
      cases n with
      | zero => have := lc_pos I ho hz; omega
      | succ n =>
        have ho1 : (h.setObj p { o with refs := o.refs - 1 }).obj p = some { o with refs := o.refs - 1 } := by
          simp [Heap.setObj, upd_self]
        have D : ∀ q, Safe h X ext q → Safe (h.setObj p { o with refs := o.refs - 1 }) (X.addo p) ext q ∧ q ≠ p :=
          fun q hq => Safe.dec I1 ho hr h0 hq
        have hzp : X.zp p = false := by
          by_contra hcp
          exact (D p (P p (by simpa using hcp))).2 rfl
        have hc1 : none ∉ fields (h.setObj p { o with refs := o.refs - 1 }) p := by
          rw [fields_setObj, if_pos rfl]; rw [fields_some ho] at hc; exact hc
        refine (delObj_okC (unref_okC N T n) hT I1 ho1 h0 hz hc1 hzp (fun q hq => (D q (P q hq)).1)
          (by rw [lc_setObj ho]; exact hn)).mono
          fun h' ⟨I', E', E2, E3⟩ => ⟨I', ⟨E'.dec ho hr, fun q hq => ?_, E3⟩⟩
        have e : q ≠ p := by rintro rfl; rw [hT] at hq; cases hq
        rw [E2 q hq]
        simp only [Heap.setObj, upd_ne _ _ e]
    · rw [if_neg h0]
      refine Tot.pure ⟨I1, ⟨Evo.dec ho hr (by omega) h0, fun q hq => ?_, rfl⟩⟩
      have e : q ≠ p := by rintro rfl; rw [hT] at hq; cases hq
      simp only [Heap.setObj, upd_ne _ _ e]

theorem unref_ok (N : Nat) (T : Nat → Bool) : ∀ n, UnrefOk N T n (unref (n + 1))
  | n, h, X, ext, eU, p, hX, I, P, hn => by
    obtain ⟨o, ho, hr, hz, hc, I1⟩ := I.dec
    simp only [unref]
    rw [getObj_ok ho, ok_bind, cassert_true (by simpa using hr), ok_bind]
    by_cases h0 : o.refs - 1 = 0
    · rw [if_pos h0]
      cases n with
      | zero => have := lc_pos I ho hz; omega
      | succ n =>
        have ho1 : (h.setObj p { o with refs := o.refs - 1 }).obj p = some { o with refs := o.refs - 1 } := by
          simp [Heap.setObj, upd_self]
        have D : ∀ q, Safe h X ext q → Safe (h.setObj p { o with refs := o.refs - 1 }) (X.addo p) ext q ∧ q ≠ p :=
          fun q hq => Safe.dec I1 ho hr h0 hq
        have hzp : X.zp p = false := by
          by_contra hcp
          exact (D p (P p (by simpa using hcp))).2 rfl
        have hc1 : none ∉ fields (h.setObj p { o with refs := o.refs - 1 }) p := by
          rw [fields_setObj, if_pos rfl]; rw [fields_some ho] at hc; exact hc
        exact (delObj_ok (unref_ok N T n) (unref_okC N T n) hX I1 ho1 h0 hz hc1 hzp (fun q hq => (D q (P q hq)).1)
          (by rw [lc_setObj ho]; exact hn)).mono
          fun h' ⟨I', E'⟩ => ⟨I', E'.dec ho hr⟩
    · rw [if_neg h0]
      exact Tot.pure ⟨I1, Evo.dec ho hr (by omega) h0⟩

end H2.RefC
