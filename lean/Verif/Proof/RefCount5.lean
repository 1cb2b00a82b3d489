import Verif.Proof.RefCount4

set_option linter.unusedSectionVars false

namespace H2.RefC

variable {N n : Nat} {T : Nat → Bool} {X : Ex} {ext eU : Nat → Nat} {h : Heap}

/-! ### the constructors -/

theorem Inv.allocU {v : Nat} (I : Inv N T h Ex.none ext eU) (hv : h.uni v = none) (hN : v < N) :
    Inv N T (h.setUni v ⟨fun _ => none, fun _ => none, fun _ => none⟩) ((Ex.none.addz true v).addz false v) ext
      (ado eU (some v)) := by
  have zz : ∀ s, ((Ex.none.addz true v).addz false v).z s v = true := by
    intro s
    cases s
    · rw [Ex.addz_self]
    · rw [Ex.addz_ne _ (by simp), Ex.addz_self]
  have zn : ∀ s w, w ≠ v → ((Ex.none.addz true v).addz false v).z s w = Ex.none.z s w := by
    intro s w hw
    rw [Ex.addz_ne _ (by simp [hw]), Ex.addz_ne _ (by simp [hw])]
  have SR : SameRefs h (h.setUni v ⟨fun _ => none, fun _ => none, fun _ => none⟩) Ex.none
      ((Ex.none.addz true v).addz false v) := by
    refine ⟨fun _ => rfl, fun _ => rfl, fun s w => ?_⟩
    unfold B
    rw [basisOf_setUni]
    by_cases e : w = v
    · subst e
      rw [zz]
      simp [basisOf, hv, Ex.none]
    · rw [zn s w e, if_neg e]
  refine ⟨fun q hq => ⟨(I.bnd q hq).1, ?_⟩, fun q oq hq => ?_, fun q hq => ?_, I.zomb, fun w => ?_, I.compl,
      fun q oq hq t => ?_, I.ty, I.tyF, I.tyU, fun w t q hq => ?_, fun w x t hw hzw => ?_⟩
  · simp only [Heap.setUni]
    rw [upd_ne _ _ (by omega)]; exact (I.bnd q hq).2
  · rw [SR.cF, SR.cB]; exact I.refs q oq hq
  · rw [SR.cF, SR.cB]; exact I.dead q hq
  · rw [SR.cU]
    have := I.uni w
    by_cases e : w = v
    · subst e
      rw [hv] at this
      simp only [Option.isSome_none, Bool.false_eq_true, if_false] at this
      simp only [Heap.setUni, upd_self, Option.isSome_some, if_true, ado]
      omega
    · simp only [Heap.setUni, upd_ne _ _ e]
      rw [this]
      have e' : ¬ (some v = some w) := fun h => e (Option.some.inj h).symm
      simp only [ado, if_neg e', Nat.add_zero]
  · obtain ⟨L, g1, g2, g3⟩ := I.lists q oq hq t
    refine ⟨L, linked_congr (fun w hw x hx => ⟨x, ?_, rfl, rfl⟩) g1, g2, fun w => by rw [g3, SR.B]⟩
    have e : w ≠ v := by rintro rfl; rw [hv] at hx; cases hx
    simp only [Heap.setUni, upd_ne _ _ e]; exact hx
  · rw [SR.B] at hq; exact I.tyB w t q hq
  · by_cases e : w = v
    · subst e; rw [zz] at hzw; cases hzw
    · simp only [Heap.setUni, upd_ne _ _ e] at hw
      exact I.att w x t hw rfl

theorem newUniform_ok {v rb cb : Nat} {ob oc : Obj} (I : Inv N T h Ex.none ext eU) (hv : h.uni v = none) (hN : v < N)
    (hb : h.obj rb = some ob) (tb : T rb = true) (cb0 : none ∉ fields h rb)
    (hc : h.obj cb = some oc) (tc : T cb = true) (cc0 : none ∉ fields h cb) :
    Tot (newUniform n v rb cb h) fun h' => Inv N T h' Ex.none ext (ado eU (some v)) ∧ Grow h h' ∧
      (∀ q, q ≠ rb → q ≠ cb → h'.obj q = h.obj q) ∧ basisOf h' false v = some rb ∧ basisOf h' true v = some cb := by
  unfold newUniform
  have I1 := I.allocU hv hN
  have hu1 : (h.setUni v ⟨fun _ => none, fun _ => none, fun _ => none⟩).uni v =
      some ⟨fun _ => none, fun _ => none, fun _ => none⟩ := by simp [Heap.setUni, upd_self]
  have R1 : Tot (refSide n false v rb (h.setUni v ⟨fun _ => none, fun _ => none, fun _ => none⟩)) fun h' =>
      Inv N T h' (Ex.none.addz true v) ext (ado eU (some v)) ∧ Grow h h' ∧ (∀ q, q ≠ rb → h'.obj q = h.obj q) ∧
      ∃ u', h'.uni v = some u' ∧ u'.basis = updB (fun _ => none) false (some rb) := by
    unfold refSide
    rw [getUni_ok hu1, ok_bind, if_neg (by simp), if_pos rfl]
    exact (attach_ok I1 hu1 rfl (by rw [Ex.addz_ne _ (by simp)]; rfl) hb tb rfl cb0).mono fun h' ⟨J1, J2, J3, J4⟩ =>
      ⟨J1, ⟨J2.obj, J2.obj'⟩, J3, J4⟩
  refine Tot.bind R1 fun h1 _ ⟨J1, J2, J3, u1, J4, J5⟩ => ?_
  obtain ⟨oc1, hc1, _⟩ := J2.obj cb oc hc
  have e1 : u1.basis true = none := by rw [J5]; rfl
  unfold refSide
  rw [getUni_ok J4, ok_bind, if_neg (by rw [e1]; simp), if_pos e1]
  refine (attach_ok J1 J4 e1 rfl hc1 tc rfl (by rw [J2.fields]; exact cc0)).mono fun h2 ⟨K1, K2, K3, u2, K4, K5⟩ =>
    ⟨K1, J2.trans K2, fun q h1 h2 => by rw [K3 q h2, J3 q h1], ?_, ?_⟩
  · rw [basisOf_some K4, K5, J5]; rfl
  · rw [basisOf_some K4, K5, J5]; rfl

theorem newH2_ok {p k rb cb : Nat} {ob oc : Obj} (I : Inv N T h Ex.none ext eU) (hp : h.obj p = none) (hN : p < N)
    (hb : h.obj rb = some ob) (cb0 : none ∉ fields h rb) (hc : h.obj cb = some oc) (cc0 : none ∉ fields h cb) :
    Tot (newH2 p k rb cb h) fun h' => Inv N (upd T p false) h' Ex.none ext eU ∧
      Grow (h.setObj p ⟨false, 0, List.replicate k none, [some cb, some rb], none, fun _ => none⟩) h' ∧ h'.uni = h.uni ∧
      h'.obj p = some ⟨false, 0, List.replicate k none, [some cb, some rb], none, fun _ => none⟩ := by
  unfold newH2
  have np : ∀ {q oq}, h.obj q = some oq → q ≠ p := fun h1 e => by rw [e, hp] at h1; cases h1
  have I1 := I.alloc (o := ⟨false, 0, List.replicate k none, [some cb, some rb], none, fun _ => none⟩) hp hN rfl
    (fun _ => rfl) (fun h => by cases h) (fun h => by cases h)
  simp only at I1
  generalize hh1 : h.setObj p ⟨false, 0, List.replicate k none, [some cb, some rb], none, fun _ => none⟩ = h1 at I1
  have f1 : ∀ q, q ≠ p → fields h1 q = fields h q := fun q hq => by rw [← hh1, fields_setObj, if_neg hq]
  have o1 : ∀ q, q ≠ p → h1.obj q = h.obj q := fun q hq => by rw [← hh1]; simp only [Heap.setObj, upd_ne _ _ hq]
  have o1p : h1.obj p = some ⟨false, 0, List.replicate k none, [some cb, some rb], none, fun _ => none⟩ := by
    rw [← hh1]; simp [Heap.setObj, upd_self]
  have zo : ∀ q, q ≠ p → (Ex.none.addo p).zo q = false := fun q hq => by simp only [Ex.addo, upd_ne _ _ hq]; rfl
  refine Tot.bind (incref_ok I1 (p := rb) (by rw [o1 rb (np hb)]; exact hb) (zo rb (np hb))
    (by rw [f1 rb (np hb)]; exact cb0)) fun h2 _ ⟨I2, G2, u2, v2⟩ => ?_
  obtain ⟨oc2, hc2, _⟩ := G2.obj cb oc (by rw [o1 cb (np hc)]; exact hc)
  refine (incref_ok I2 hc2 (zo cb (np hc)) (by rw [G2.fields, f1 cb (np hc)]; exact cc0)).mono fun h3 ⟨I3, G3, u3, v3⟩ => ?_
  have o3p : h3.obj p = some ⟨false, 0, List.replicate k none, [some cb, some rb], none, fun _ => none⟩ := by
    rw [v3 p (np hc).symm, v2 p (np hb).symm, o1p]
  refine ⟨Inv.unzomb (o := ⟨false, 0, List.replicate k none, [some cb, some rb], none, fun _ => none⟩) ?_ o3p rfl rfl,
    G2.trans G3, by rw [u3, u2, ← hh1]; rfl, o3p⟩
  have e1 : adl ext (fields h3 p) = ad (ad ext rb) cb := by
    rw [fields_some o3p]
    simp only
    have : ∀ l, adl ext (List.replicate k none ++ l) = adl ext l := fun l => by
      funext q; simp [adl, List.count_append, List.count_replicate]
    rw [this, adl_cons, adl_cons, adl_nil]
  have e2 : ado eU none = eU := by funext v; simp [ado]
  rw [e1]
  simp only [e2]
  exact I3

theorem Inv.setU {p v : Nat} {o : Obj} (I : Inv N T h Ex.none ext (ado eU (some v))) (ho : h.obj p = some o) (hr : o.refs = 0)
    (hu : o.u = none) (hT : T p = false) : Inv N T (h.setObj p { o with u := some v }) Ex.none ext eU := by
  have Z := I.zombify ho hr rfl rfl
  have e2 : ado (ado eU (some v)) o.u = ado eU (some v) := by rw [hu]; funext v; simp [ado]
  rw [e2] at Z
  have E := Z.edit (o' := { o with u := some v }) ho (.inl (by simp [Ex.addo, upd_self])) rfl rfl rfl (by omega)
    (by rw [hT]; simp) (by rw [hT]; simp)
  refine Inv.unzomb (p := p) (o := { o with u := some v }) ?_ (by simp [Heap.setObj, upd_self]) rfl rfl
  have e3 : fields (h.setObj p { o with u := some v }) p = fields h p := by
    rw [fields_setObj, if_pos rfl, fields_some ho]
  rw [e3]
  exact E

/-! ### client states -/

def extV (V : Nat) (vars : Nat → Option Nat) (p : Nat) : Nat :=
  ∑ x ∈ Finset.range V, if vars x = some p then 1 else 0
def eH (held : Nat → Bool) (v : Nat) : Nat := if held v = true then 1 else 0

def StInv (st : St) : Prop := ∃ T, Inv st.N T st.h Ex.none (extV st.V st.vars) (eH st.held)

theorem refCount_eq (st : St) (p : Nat) :
    refCount st p = extV st.V st.vars p + cF st.N st.h Ex.none p + cB st.N st.h Ex.none p := rfl

theorem extV_upd {V : Nat} {vars : Nat → Option Nat} {x : Nat} (hx : x < V) (q : Option Nat) :
    extV V (upd vars x q) = ado (extV V (upd vars x none)) q := by
  funext p
  have := sum_change (f := fun y => if upd vars x none y = some p then 1 else 0)
    (f' := fun y => if upd vars x q y = some p then 1 else 0) hx (fun k hk => by
      have : upd vars x q k = upd vars x none k := by rw [upd_ne _ _ hk, upd_ne _ _ hk]
      rw [this])
  simp only [upd_self, reduceCtorEq, if_false] at this
  unfold ado extV
  omega

theorem upd_id {α : Type _} (f : Nat → α) (x : Nat) : upd f x (f x) = f := by
  funext y
  by_cases e : y = x
  · subst e; rw [upd_self]
  · rw [upd_ne _ _ e]

theorem eH_true {held : Nat → Bool} {v : Nat} (hv : held v = true) : eH held = ado (eH (upd held v false)) (some v) := by
  funext w
  unfold eH ado
  by_cases e : w = v
  · subst e; simp [upd_self, hv]
  · have : ¬ (some v = some w) := fun h => e (Option.some.inj h).symm
    simp only [upd_ne _ _ e, if_neg this, Nat.add_zero]

theorem eH_new {held : Nat → Bool} {v : Nat} (hv : held v = false) : eH (upd held v true) = ado (eH held) (some v) := by
  funext w
  unfold eH ado
  by_cases e : w = v
  · subst e; simp [upd_self, hv]
  · have : ¬ (some v = some w) := fun h => e (Option.some.inj h).symm
    rw [upd_ne _ _ e, if_neg this, Nat.add_zero]

theorem lc_le (N : Nat) (h : Heap) (X : Ex) : lc N h X ≤ N := by
  unfold lc
  calc _ ≤ ∑ q ∈ Finset.range N, 1 := Finset.sum_le_sum fun q _ => by split <;> omega
    _ = N := by simp

/-- what an operation does to the objects that existed before -/
structure Tr (d : Nat → Prop) (h h' : Heap) : Prop where
  z : ∀ q o o', h.obj q = some o → h'.obj q = some o' → o'.refs = 0 → o.refs = 0
  fl : ∀ q o, h.obj q = some o → o.refs = 0 → ¬ d q → ∃ o', h'.obj q = some o'
  gone : ∀ q, d q → h'.obj q = none

theorem Evo.tr {h h' : Heap} (e : Evo h h') : Tr (fun _ => False) h h' := by
  refine ⟨fun q o o' h1 h2 h3 => ?_, fun q o h1 h2 _ => e.float q o h1 h2, fun q h => h.elim⟩
  obtain ⟨o2, h4, _, _, _, _, _, h5⟩ := e.obj q o' h2
  rw [h1] at h4; cases h4
  exact h5 h3

theorem Grow.tr {h h' : Heap} (e : Grow h h') : Tr (fun _ => False) h h' := by
  refine ⟨fun q o o' h1 h2 h3 => ?_, fun q o h1 h2 _ => ?_, fun q h => h.elim⟩
  · obtain ⟨o2, h4, _, _, _, _, h5⟩ := e.obj q o h1
    rw [h2] at h4; cases h4
    omega
  · obtain ⟨o2, h4, _⟩ := e.obj q o h1
    exact ⟨o2, h4⟩

theorem Tr.grow {h h' h'' : Heap} {d : Nat → Prop} (t : Tr d h h') (e : Grow h' h'') : Tr d h h'' := by
  refine ⟨fun q o o' h1 h2 h3 => ?_, fun q o h1 h2 h3 => ?_, fun q hd => ?_⟩
  · obtain ⟨o1, h4⟩ := e.obj' q o' h2
    obtain ⟨o2, h5, _, _, _, _, h6⟩ := e.obj q o1 h4
    rw [h2] at h5; cases h5
    exact t.z q o o1 h1 h4 (by omega)
  · obtain ⟨o1, h4⟩ := t.fl q o h1 h2 h3
    obtain ⟨o2, h5, _⟩ := e.obj q o1 h4
    exact ⟨o2, h5⟩
  · cases h1 : h''.obj q with
    | none => rfl
    | some o =>
      obtain ⟨o1, h4⟩ := e.obj' q o h1
      rw [t.gone q hd] at h4; cases h4

theorem Tr.new {p : Nat} {o : Obj} {h : Heap} (hp : h.obj p = none) : Tr (fun _ => False) h (h.setObj p o) := by
  have np : ∀ {q oq}, h.obj q = some oq → q ≠ p := fun h1 e => by rw [e, hp] at h1; cases h1
  refine ⟨fun q oq o' h1 h2 h3 => ?_, fun q oq h1 h2 _ => ⟨oq, ?_⟩, fun q h => h.elim⟩
  · simp only [Heap.setObj, upd_ne _ _ (np h1)] at h2
    rw [h1] at h2; cases h2; exact h3
  · simp only [Heap.setObj, upd_ne _ _ (np h1)]; exact h1

/-- changes of an object that keep its counter -/
theorem Tr.edit {h h' : Heap} {d : Nat → Prop} (t : Tr d h h') {p : Nat} {o o' : Obj} (ho : h'.obj p = some o)
    (hr : o'.refs = o.refs) : Tr d h (h'.setObj p o') := by
  refine ⟨fun q oq oq' h1 h2 h3 => ?_, fun q oq h1 h2 h3 => ?_, fun q hd => ?_⟩
  · by_cases e : q = p
    · subst e
      simp only [Heap.setObj, upd_self, Option.some.injEq] at h2
      subst h2
      exact t.z q oq o h1 ho (by omega)
    · simp only [Heap.setObj, upd_ne _ _ e] at h2
      exact t.z q oq oq' h1 h2 h3
  · obtain ⟨o1, h4⟩ := t.fl q oq h1 h2 h3
    exact setObj_live h4
  · have e : q ≠ p := by rintro rfl; rw [t.gone q hd] at ho; cases ho
    simp only [Heap.setObj, upd_ne _ _ e]; exact t.gone q hd

/-- a path of the client -/
theorem Kept.safe {st : St} {x : Option Nat} {p : Nat} (hk : Kept st x none p) {ext : Nat → Nat}
    (hext : ∀ y q, y < st.V → some y ≠ x → st.vars y = some q → 0 < ext q) : Safe st.h Ex.none ext p := by
  induction hk with
  | var h1 h2 h3 => exact .root (hext _ _ h1 h2 h3)
  | float h1 => obtain ⟨o, h1, h2⟩ := h1; exact .float h1 h2 rfl
  | step _ _ h3 ih => exact .step ih rfl rfl h3
  | other _ h2 _ _ => cases h2

theorem Kept.safe' {st : St} {p q i : Nat} (hk : Kept st none (some (p, i)) q) {ext : Nat → Nat}
    (hext : ∀ y q, y < st.V → st.vars y = some q → 0 < ext q)
    (hf : ∀ b, some b ∈ (fields st.h p).eraseIdx i → 0 < ext b) : Safe st.h (Ex.none.addp p) ext q := by
  induction hk with
  | var h1 h2 h3 => exact .root (hext _ _ h1 h3)
  | float h1 => obtain ⟨o, h1, h2⟩ := h1; exact .float h1 h2 rfl
  | @step a b _ h2 h3 ih =>
    refine .step ih rfl ?_ h3
    have : a ≠ p := by rintro rfl; exact h2 i rfl
    simp only [Ex.addp, upd_ne _ _ this]; rfl
  | other _ h2 h3 _ => cases h2; exact .root (hf _ h3)

theorem extV_pos {V : Nat} {vars : Nat → Option Nat} {y q : Nat} (hy : y < V) (h : vars y = some q) : 0 < extV V vars q := by
  refine lt_of_lt_of_le ?_ (Finset.single_le_sum (f := fun y => if vars y = some q then 1 else 0)
    (fun _ _ => Nat.zero_le _) (Finset.mem_range.mpr hy))
  simp [h]

theorem prot_none (h : Heap) (ext : Nat → Nat) : Prot h Ex.none ext := fun p hp => by cases hp

theorem unrefOpt_ok (I : Inv N T h X (ado ext old) eU) (hX : ∀ s v, X.z s v = false) (P : Prot h X ext) :
    Tot (unrefOpt (N + 1) old h) fun h' => Inv N T h' X ext eU ∧ Evo h h' := by
  cases old with
  | none =>
    have e : ado ext none = ext := by funext v; simp [ado]
    rw [e] at I
    exact Tot.pure ⟨I, Evo.refl h⟩
  | some p =>
    have e : ado ext (some p) = ad ext p := by funext v; simp [ado, ad, eq_comm]
    rw [e] at I
    exact unref_ok N T N h X ext eU p hX I P (lc_le _ _ _)

/-! ### one step -/

theorem Inv.untype {N : Nat} {h : Heap} {X : Ex} {ext eU : Nat → Nat} (st : St) (e1 : st.N = N) (e2 : st.h = h)
    (e3 : extV st.V st.vars = ext) (e4 : eH st.held = eU) (I : Inv N T h Ex.none ext eU) : StInv st := by
  subst e1 e2 e3 e4; exact ⟨T, I⟩

def delOf (op : Op) (q : Nat) : Prop := op = .del q

theorem tr_of {h h' : Heap} {op : Op} (hd : ∀ q, op ≠ .del q) (t : Tr (fun _ => False) h h') : Tr (delOf op) h h' :=
  ⟨t.z, fun q o h1 h2 _ => t.fl q o h1 h2 id, fun q h => absurd h (hd q)⟩

theorem held_false {st : St} (I : Inv N T st.h Ex.none ext (eH st.held)) {v : Nat} (hv : st.h.uni v = none) :
    st.held v = false := by
  have := I.uni v
  rw [hv] at this
  unfold eH at this
  cases hh : st.held v with
  | false => rfl
  | true => rw [hh] at this; simp at this; omega

/-- the bases an operation sets -/
def Sets (st' : St) : Op → Prop
  | .newUniform v rb cb => basisOf st'.h false v = some rb ∧ basisOf st'.h true v = some cb
  | .newUniformH2 p v rb cb => ownedOf st'.h p = some v ∧ basisOf st'.h false v = some rb ∧ basisOf st'.h true v = some cb
  | .refSide s v rb => basisOf st'.h s v = some rb
  | _ => True

theorem step_ok {st : St} {op : Op} (hI : StInv st) (hL : Legal st op) :
    Tot (step st op) fun st' => StInv st' ∧ Tr (delOf op) st.h st'.h ∧ Sets st' op := by
  obtain ⟨T, I⟩ := hI
  cases op with
  | newObj b p k =>
    have Ig := I.grow (N' := max st.N (p + 1)) (by omega)
    have A := Ig.alloc (o := ⟨b, 0, List.replicate k none, [], none, fun _ => none⟩) hL (by omega) rfl (fun _ => rfl)
      (fun _ => rfl) (fun _ q hq => by simp at hq)
    refine Tot.pure ⟨⟨upd T p b, Inv.unzomb (p := p) (o := ⟨b, 0, List.replicate k none, [], none, fun _ => none⟩) ?_
      (by simp [newObj, Heap.setObj, upd_self]) rfl rfl⟩, tr_of (by simp) (Tr.new hL), trivial⟩
    · have e1 : adl (extV st.V st.vars) (fields (newObj b p k st.h) p) = extV st.V st.vars := by
        rw [newObj, fields_setObj, if_pos rfl]
        funext q; simp [adl, List.count_replicate]
      have e2 : ado (eH st.held) none = eH st.held := by funext v; simp [ado]
      simp only [e1, e2]
      exact A
  | newH2 p k rb cb =>
    obtain ⟨hp, ⟨⟨ob, hb, _⟩, cb0⟩, ⟨oc, hc, _⟩, cc0⟩ := hL
    have Ig := I.grow (N' := max st.N (p + 1)) (by omega)
    refine Tot.bind (newH2_ok (k := k) Ig hp (by omega) hb cb0 hc cc0) fun h' _ ⟨J1, J2, _⟩ => ?_
    exact Tot.pure ⟨⟨_, J1⟩, tr_of (by simp) ((Tr.new hp).grow J2), trivial⟩
  | newUniformH2 p v rb cb =>
    obtain ⟨hp, hv, ⟨⟨ob, hb, tb⟩, cb0⟩, ⟨oc, hc, tc⟩, cc0⟩ := hL
    have np : ∀ {q oq}, st.h.obj q = some oq → q ≠ p := fun h1 e => by rw [e, hp] at h1; cases h1
    have Ig := I.grow (N' := max (max st.N (p + 1)) (v + 1)) (by omega)
    simp only [step, newUniformH2]
    refine Tot.bind (P := fun h' => Inv (max (max st.N (p + 1)) (v + 1)) (upd T p false) h' Ex.none
      (extV st.V st.vars) (eH st.held) ∧ Tr (fun _ => False) st.h h' ∧ ownedOf h' p = some v ∧
      basisOf h' false v = some rb ∧ basisOf h' true v = some cb) ?_ fun h' _ ⟨J1, J2, J3⟩ =>
      Tot.pure ⟨⟨_, J1⟩, tr_of (by simp) J2, J3⟩
    refine Tot.bind (newH2_ok (k := 0) Ig hp (by omega) hb cb0 hc cc0) fun h1 _ ⟨J1, J2, J3, J4⟩ => ?_
    have f1 : ∀ q, q ≠ p → fields h1 q = fields st.h q := fun q hq => by
      rw [J2.fields, fields_setObj, if_neg hq]
    have lv : ∀ q oq, st.h.obj q = some oq → ∃ oq', h1.obj q = some oq' := fun q oq hq => by
      obtain ⟨oq', h2, _⟩ := J2.obj q oq (by simp only [Heap.setObj, upd_ne _ _ (np hq)]; exact hq)
      exact ⟨oq', h2⟩
    obtain ⟨ob1, hb1⟩ := lv rb ob hb
    obtain ⟨oc1, hc1⟩ := lv cb oc hc
    have Tq : ∀ q oq, st.h.obj q = some oq → oq.bas = true → upd T p false q = true := fun q oq hq e => by
      rw [upd_ne _ _ (np hq), ← I.ty q oq hq, e]
    refine Tot.bind (newUniform_ok J1 (by rw [J3]; exact hv) (by omega) hb1 (Tq rb ob hb tb)
      (by rw [f1 rb (np hb)]; exact cb0) hc1 (Tq cb oc hc tc) (by rw [f1 cb (np hc)]; exact cc0)) fun h2 _ ⟨K1, K2, K3, K4⟩ => ?_
    have op2 : h2.obj p = some ⟨false, 0, List.replicate 0 none, [some cb, some rb], none, fun _ => none⟩ := by
      rw [K3 p (np hb).symm (np hc).symm, J4]
    rw [getObj_ok op2, ok_bind]
    refine Tot.pure ⟨K1.setU op2 rfl rfl (upd_self _ _ _), (((Tr.new hp).grow J2).grow K2).edit op2 rfl, by
      rw [ownedOf_setObj, if_pos rfl], K4⟩
  | newUniform v rb cb =>
    obtain ⟨hv, ⟨⟨ob, hb, tb⟩, cb0⟩, ⟨oc, hc, tc⟩, cc0⟩ := hL
    have Ig := I.grow (N' := max st.N (v + 1)) (by omega)
    refine Tot.bind (newUniform_ok Ig hv (by omega) hb (by rw [← I.ty rb ob hb, tb]) cb0 hc (by rw [← I.ty cb oc hc, tc]) cc0)
      fun h' _ ⟨J1, J2, _, J4⟩ => ?_
    refine Tot.pure ⟨⟨T, ?_⟩, tr_of (by simp) J2.tr, J4⟩
    simp only [eH_new (held_false I hv)]
    exact J1
  | delUniform v =>
    have hh : st.held v = true := hL
    rw [eH_true hh] at I
    refine Tot.bind (delUniform_ok (n := st.N) (unref_okC st.N T st.N) (fun _ => rfl) I (prot_none _ _) (lc_le _ _ _))
      fun h' _ ⟨J1, J2⟩ => ?_
    exact Tot.pure ⟨⟨T, J1⟩, tr_of (by simp) J2.tr, trivial⟩
  | refSide s v rb =>
    obtain ⟨⟨u, hu⟩, ⟨⟨ob, hb, tb⟩, cb0⟩, hk⟩ := hL
    have hs : Safe st.h Ex.none (extV st.V st.vars) rb := hk.safe fun y q h1 _ h3 => extV_pos h1 h3
    refine Tot.bind (P := fun h' => Inv st.N T h' Ex.none (extV st.V st.vars) (eH st.held) ∧ Tr (fun _ => False) st.h h' ∧
      basisOf h' s v = some rb) ?_ fun h' _ ⟨J1, J2, J3⟩ => Tot.pure ⟨⟨T, J1⟩, tr_of (by simp) J2, J3⟩
    unfold refSide
    rw [getUni_ok hu, ok_bind]
    by_cases e : u.basis s = some rb
    · rw [if_pos e]; exact Tot.pure ⟨I, (Evo.refl _).tr, by rw [basisOf_some hu, e]⟩
    · rw [if_neg e, if_neg (I.att v u s hu rfl)]
      refine Tot.bind (unrefSide_ok (unref_okC st.N T st.N) I hu rfl (prot_none _ _) (lc_le _ _ _)) fun h1 _ ⟨J1, J2⟩ => ?_
      obtain ⟨u1, hu1⟩ := J2.uni' v u hu
      obtain ⟨u0, hu0, eu⟩ := J2.uni v u1 hu1
      rw [hu] at hu0; cases hu0
      rw [if_pos rfl] at eu
      have hs1 := Safe.evo J2.obj J2.float J1 (fun _ => le_rfl) (hs.addz (s := s) (v := v))
      obtain ⟨ob1, hb1, _⟩ := hs1.live J1
      obtain ⟨ob0, hb0, e1, e2, _⟩ := J2.obj rb ob1 hb1
      have hc1 : none ∉ fields h1 rb := by
        rw [fields_some hb1, e1, e2, ← fields_some hb0]; exact cb0
      refine (attach_ok J1 hu1 (by rw [eu]; exact updB_self _ _ _) rfl hb1 (by rw [← I.ty rb ob hb, tb]) rfl hc1).mono
        fun h2 ⟨K1, K2, _, u2, K4, K5⟩ => ⟨K1, ?_, by rw [basisOf_some K4, K5]; exact updB_self _ _ _⟩
      refine Tr.grow ⟨fun q o o' g1 g2 g3 => ?_, fun q o g1 g2 _ => J2.float q o g1 g2, fun q h => h.elim⟩ K2
      obtain ⟨o2, h4, _, _, _, _, _, h5⟩ := J2.obj q o' g2
      rw [g1] at h4; cases h4
      exact h5 g3
  | ref x q =>
    obtain ⟨hx, hq⟩ := hL
    have I0 : Inv st.N T st.h Ex.none (ado (extV st.V (upd st.vars x none)) (st.vars x)) (eH st.held) := by
      rw [← extV_upd hx, upd_id]; exact I
    refine Tot.bind (unrefOpt_ok I0 (fun _ _ => rfl) (prot_none _ _)) fun h1 _ ⟨J1, J2⟩ => ?_
    cases q with
    | none =>
      refine Tot.pure ⟨⟨T, ?_⟩, tr_of (by simp) J2.tr, trivial⟩
      exact J1
    | some q =>
      obtain ⟨hc, hk⟩ := hq q rfl
      have hs : Safe st.h Ex.none (extV st.V (upd st.vars x none)) q := hk.safe fun y q h1 h2 h3 =>
        extV_pos (y := y) h1 (by rw [upd_ne _ _ (by rintro rfl; exact h2 rfl)]; exact h3)
      have hs1 := Safe.evo J2.obj J2.float J1 (fun _ => le_rfl) hs
      obtain ⟨o1, ho1, _⟩ := hs1.live J1
      obtain ⟨o0, ho0, e1, e2, _⟩ := J2.obj q o1 ho1
      have hc1 : none ∉ fields h1 q := by
        rw [fields_some ho1, e1, e2, ← fields_some ho0]; exact hc
      refine Tot.bind (incref_ok J1 ho1 rfl hc1) fun h2 _ ⟨K1, K2, _⟩ => ?_
      refine Tot.pure ⟨⟨T, ?_⟩, tr_of (by simp) (J2.tr.grow K2), trivial⟩
      rw [extV_upd hx]
      have e : ado (extV st.V (upd st.vars x none)) (some q) = ad (extV st.V (upd st.vars x none)) q := by
        funext v; simp [ado, ad, eq_comm]
      rw [e]; exact K1
  | refSon p i q =>
    obtain ⟨hqp, o, ho, hi, ⟨⟨oq, hoq, tq⟩, hcq⟩, kp, kq⟩ := hL
    have hp := I.lt ho
    have hgi : o.son[i]? = some o.son[i] := List.getElem?_eq_getElem hi
    simp only [step]
    rw [getObj_ok ho, ok_bind, hgi]
    simp only
    have ef := fields_some ho
    have hi' : i < (fields st.h p).length := by rw [ef]; simp; omega
    have hgf : (fields st.h p)[i] = o.son[i] := by simp only [ef]; rw [List.getElem_append_left hi]
    -- multiplicities with and without the pointer
    have cnt : ∀ (l : List (Option Nat)) (hl : i < l.length) (a : Nat),
        l.count (some a) = (l.eraseIdx i).count (some a) + if l[i] = some a then 1 else 0 := by
      intro l hl a
      have e1 : l = l.take i ++ l[i] :: l.drop (i + 1) := by
        rw [← List.drop_eq_getElem_cons hl, List.take_append_drop]
      rw [List.eraseIdx_eq_take_drop_succ]
      conv_lhs => rw [e1]
      simp only [List.count_append, List.count_cons, beq_iff_eq]
      omega
    have cntS : ∀ (l : List (Option Nat)) (hl : i < l.length) (a : Nat),
        (l.set i (some q)).count (some a) = (l.eraseIdx i).count (some a) + if q = a then 1 else 0 := by
      intro l hl a
      rw [cnt (l.set i (some q)) (by simpa using hl) a]
      simp only [List.eraseIdx_set_eq, List.getElem_set_self, Option.some.injEq]
    generalize hE : adl (extV st.V st.vars) ((fields st.h p).eraseIdx i) = E
    have I0 : Inv st.N T st.h (Ex.none.addp p) (ado E o.son[i]) (eH st.held) := by
      have := (Inv.openp rfl rfl hp).mp I
      have e : adl (extV st.V st.vars) (fields st.h p) = ado E o.son[i] := by
        funext a
        rw [← hE]
        simp only [adl, ado]
        rw [cnt _ hi' a, hgf]
        omega
      rw [← e]; exact this
    have hext : ∀ y q, y < st.V → st.vars y = some q → 0 < E q := fun y q h1 h2 => by
      rw [← hE]
      exact lt_of_lt_of_le (extV_pos h1 h2) (le_adl _ _ _)
    have hfe : ∀ b, some b ∈ (fields st.h p).eraseIdx i → 0 < E b := fun b hb => by
      rw [← hE]
      have := List.count_pos_iff.mpr hb
      simp only [adl]; omega
    have sp := kp.safe' hext hfe
    have sq := kq.safe' hext hfe
    have P : Prot st.h (Ex.none.addp p) E := by
      intro a ha
      have : a = p := by
        by_contra hn
        simp only [Ex.addp, upd_ne _ _ hn] at ha; cases ha
      rw [this]; exact sp
    refine Tot.bind (unrefOpt_ok I0 (fun _ _ => rfl) P) fun h1 _ ⟨J1, J2⟩ => ?_
    obtain ⟨o1, ho1, _⟩ := (Safe.evo J2.obj J2.float J1 (fun _ => le_rfl) sp).live J1
    obtain ⟨oq1, hoq1, _⟩ := (Safe.evo J2.obj J2.float J1 (fun _ => le_rfl) sq).live J1
    obtain ⟨o0, ho0, es, eo, eu, eb, _⟩ := J2.obj p o1 ho1
    rw [ho] at ho0; cases ho0
    obtain ⟨oq0, hoq0, es', eo', _⟩ := J2.obj q oq1 hoq1
    rw [getObj_ok ho1, ok_bind]
    have hTq : T p = true → T q = true := fun hT => by
      rw [← I.ty q oq hoq, tq, I.ty p o ho, hT]
    have hcp : 0 < o1.refs → none ∉ o1.son.set i (some q) ++ o1.own := by
      intro hr hm
      have := J1.compl p o1 ho1 hr
      rw [fields_some ho1] at this
      rcases List.mem_append.mp hm with hm | hm
      · rcases List.mem_or_eq_of_mem_set hm with hm | hm
        · exact this (List.mem_append_left _ hm)
        · cases hm
      · exact this (List.mem_append_right _ hm)
    have J3 := J1.edit (o' := { o1 with son := o1.son.set i (some q) }) ho1 (.inr ⟨by simp [Ex.addp, upd_self], rfl⟩)
      rfl rfl rfl hcp (by
        intro hT a ha
        rcases List.mem_append.mp ha with hm | hm
        · rcases List.mem_or_eq_of_mem_set hm with hm | hm
          · exact J1.tyF p a hT (by rw [fields_some ho1]; exact List.mem_append_left _ hm)
          · cases hm; exact hTq hT
        · exact J1.tyF p a hT (by rw [fields_some ho1]; exact List.mem_append_right _ hm)) (fun hT => J1.tyU p o1 ho1 hT)
    have hoq2 : (h1.setObj p { o1 with son := o1.son.set i (some q) }).obj q = some oq1 := by
      simp only [Heap.setObj, upd_ne _ _ hqp]; exact hoq1
    have hc2 : none ∉ fields (h1.setObj p { o1 with son := o1.son.set i (some q) }) q := by
      rw [fields_setObj, if_neg hqp, fields_some hoq1, es', eo', ← fields_some hoq0]; exact hcq
    refine Tot.bind (incref_ok J3 hoq2 rfl hc2) fun h2 _ ⟨K1, K2, _, K4⟩ => ?_
    refine Tot.pure ⟨⟨T, (Inv.openp (p := p) rfl rfl hp).mpr ?_⟩, tr_of (by simp) ((J2.tr.edit (o' := { o1 with son := o1.son.set i (some q) }) ho1 rfl).grow K2), trivial⟩
    have ep : h2.obj p = some { o1 with son := o1.son.set i (some q) } := by
      rw [K4 p (Ne.symm hqp)]; simp [Heap.setObj, upd_self]
    have e : adl (extV st.V st.vars) (fields h2 p) = ad E q := by
      funext a
      rw [← hE, fields_some ep, ef]
      simp only [adl, ad, es, eo]
      have hl : i < (o.son ++ o.own).length := by simp; omega
      have e2 : o.son.set i (some q) ++ o.own = (o.son ++ o.own).set i (some q) := by
        rw [List.set_append_left _ _ hi]
      rw [e2, cntS _ hl a]
      have : (if q = a then 1 else 0) = (if a = q then 1 else 0) := by simp [eq_comm]
      omega
    rw [e]; exact K1
  | unref x =>
    obtain ⟨hx, hv⟩ := hL
    cases hp : st.vars x with
    | none => exact absurd hp hv
    | some p =>
      have I0 : Inv st.N T st.h Ex.none (ad (extV st.V (upd st.vars x none)) p) (eH st.held) := by
        have e : ado (extV st.V (upd st.vars x none)) (some p) = ad (extV st.V (upd st.vars x none)) p := by
          funext v; simp [ado, ad, eq_comm]
        rw [← e, ← hp, ← extV_upd hx, upd_id]; exact I
      simp only [step, hp]
      refine Tot.bind (unref_ok st.N T st.N st.h _ _ _ p (fun _ _ => rfl) I0 (prot_none _ _) (lc_le _ _ _))
        fun h1 _ ⟨J1, J2⟩ => ?_
      exact Tot.pure ⟨⟨T, J1⟩, tr_of (by simp) J2.tr, trivial⟩
  | del p =>
    obtain ⟨⟨o, ho, hr⟩, hc⟩ := hL
    refine Tot.bind (delObj_ok (n := st.N) (unref_ok st.N T st.N) (unref_okC st.N T st.N) (fun _ _ => rfl) I ho hr rfl hc rfl
      (fun q hq => by cases hq) ((lc_le _ _ _).trans (Nat.le_succ _))) fun h1 _ ⟨J1, J2⟩ => ?_
    refine Tot.pure ⟨⟨T, J1⟩, ⟨fun q oq oq' g1 g2 g3 => ?_, fun q oq g1 g2 g3 => J2.float q oq ?_ g1 g2, fun q hq => ?_⟩, trivial⟩
    · obtain ⟨o2, h4, _, _, _, _, _, h5⟩ := J2.obj q oq' g2
      rw [g1] at h4; cases h4
      exact h5 g3
    · rintro rfl; exact g3 rfl
    · cases hq; exact J2.gone

theorem reach_inv {V : Nat} {st : St} (h : Reach V st) : StInv st := by
  induction h with
  | init =>
    refine ⟨fun _ => false, fun _ _ => ⟨rfl, rfl⟩, ?_, fun p _ => ?_, ?_, fun v => ?_, ?_, ?_, ?_, ?_, ?_, fun v s p h => ?_, ?_⟩
    any_goals (intros; contradiction)
    · simp [extV, cF, cB]
    · simp [eH, cU]
  | step _ hL hs ih =>
    obtain ⟨st', h1, h2, _⟩ := step_ok ih hL
    rw [hs] at h1
    rw [Except.ok.inj h1]; exact h2

end H2.RefC
