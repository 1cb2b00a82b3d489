import Verif.Proof.HMatrix2
import Verif.Proof.H2Mul2
import Verif.Proof.H2Solve
import Verif.Model.HClone
import Verif.Spec.HClone

set_option linter.unusedSectionVars false

namespace H2
open Spec

namespace HMat
variable {G : Type} {K : Type} [Field K] [StarRing K]

/-- old memory is kept -/
def Ext (m m' : Mem K) : Prop := ∀ c, (m c).isSome → m' c = m c

theorem Ext.refl (m : Mem K) : Ext m m := fun _ _ => rfl
theorem Ext.trans {m m1 m2 : Mem K} (h : Ext m m1) (h' : Ext m1 m2) : Ext m m2 := fun c hc => by
  rw [h' c (by rw [h c hc]; exact hc), h c hc]
theorem Ext.valid {m m' : Mem K} (h : Ext m m') {a : Mat} (ha : a.Valid m) : a.Valid m' :=
  ⟨ha.1, fun i hi j hj => by rw [h _ (ha.2 i hi j hj)]; exact ha.2 i hi j hj⟩
theorem Ext.val {m m' : Mem K} (h : Ext m m') {a : Mat} (ha : a.Valid m) {i j : Nat} (hi : i < a.rows) (hj : j < a.cols) : a.val m' i j = a.val m i j := by
  unfold Mat.val; rw [h _ (ha.2 i hi j hj)]
theorem Ext.none {m m' : Mem K} (h : Ext m m') {c : Nat} (hc : m' c = none) : m c = none := by
  by_contra hne
  have h1 : (m c).isSome := by cases e : m c <;> simp_all
  rw [h c h1] at hc
  exact hne hc

theorem valid_cell {a : Mat} {m : Mem K} (h : a.Valid m) {c : Nat} (hc : a.Cell c) : (m c).isSome := by
  obtain ⟨i, hi, j, hj, rfl⟩ := hc
  exact h.2 i hi j hj

theorem hvalid_cell {m : Mem K} : ∀ {h : HMat G}, HValid m h → ∀ {c}, HCell h c → (m c).isSome
  | .rk _ _ _ _, hv, _, hc => hc.elim (valid_cell hv.A) (valid_cell hv.B)
  | .full _ _ _ _, hv, _, hc => valid_cell hv hc
  | .super _ _ _ _ _ son, hv, _, ⟨i, j, hc⟩ => hvalid_cell (hv i j) hc

theorem Ext.hvalid {m m' : Mem K} (h : Ext m m') : ∀ {a : HMat G}, HValid m a → HValid m' a
  | .rk _ _ _ _, hv => ⟨h.valid hv.A, h.valid hv.B, hv.disj, hv.colsA, hv.colsB⟩
  | .full _ _ _ _, hv => h.valid hv
  | .super _ _ _ _ _ _, hv => fun i j => h.hvalid (hv i j)

theorem allocMat_ext {alloc : Mem K → Nat → Nat} (hal : FreshAlloc alloc) {junk : Nat → K} {rows cols : Nat} {m : Mem K} (hf : FiniteMem m) :
    FiniteMem (allocMat alloc junk rows cols m).2 ∧ Ext m (allocMat alloc junk rows cols m).2 ∧
    (allocMat alloc junk rows cols m).1.Valid (allocMat alloc junk rows cols m).2 ∧ ∀ c, (allocMat alloc junk rows cols m).1.Cell c → m c = none := by
  have fr := hal m (rows * cols) hf
  refine ⟨H2Mat.bounded_alloc hf _ _ _, fun c hc => ?_, H2Mat.newMat_valid alloc_vvalid, fun c hc => fresh_none fr (H2Mat.mcell_vcell hc)⟩
  refine alloc_frame m _ _ junk c fun h => ?_
  rw [fresh_none fr h] at hc
  exact absurd hc (by simp)

theorem frame_finite {S : Nat → Prop} {m m' : Mem K} (h : FiniteMem m) (hf : Frame S m m') (hs : ∀ c, S c → (m c).isSome) : FiniteMem m' := by
  obtain ⟨b, hb⟩ := h
  refine ⟨b, fun c hc => ?_⟩
  rw [hf c fun h => ?_]
  · exact hb c hc
  · have := hs c h
    rw [hb c hc] at this
    exact absurd this (by simp)

/-- the result of `clone` -/
def Cloned (m : Mem K) (h h' : HMat G) (m' : Mem K) : Prop :=
  FiniteMem m' ∧ Ext m m' ∧ HOk h' ∧ HValid m' h' ∧ HDisj h' ∧ (∀ c, HCell h' c → m c = none) ∧ HDescExact h' ∧ h'.rc = h.rc ∧ h'.cc = h.cc ∧ HCopyOf m m' h h'

theorem HCopyOf.ext {m m1 m' : Mem K} (hx : Ext m m1) {m2 : Mem K} (hy : Ext m' m2) : ∀ {h h' : HMat G}, HOk h → HValid m h → HOk h' → HValid m' h' →
    HCopyOf m1 m' h h' → HCopyOf m m2 h h' := by
  intro h
  induction h with
  | rk t s d r =>
    rintro (⟨t', s', d', r'⟩ | _ | _) o v o' v' hc
    · obtain ⟨rfl, rfl, h1, h2, h3⟩ := hc
      have a1 := v.colsA; have a2 := v.colsB; have a3 := v'.colsA; have a4 := v'.colsB
      refine ⟨rfl, rfl, h1, fun i hi l hl => ?_, fun i hi l hl => ?_⟩
      · rw [hy.val v'.A (by rw [o'.1]; exact hi) (by omega), h2 i hi l hl, hx.val v.A (by rw [o.1]; exact hi) (by omega)]
      · rw [hy.val v'.B (by rw [o'.2]; exact hi) (by omega), h3 i hi l hl, hx.val v.B (by rw [o.2]; exact hi) (by omega)]
    · exact hc.elim
    · exact hc.elim
  | full t s d f =>
    rintro (_ | ⟨t', s', d', f'⟩ | _) o v o' v' hc
    · exact hc.elim
    · obtain ⟨rfl, rfl, h1⟩ := hc
      refine ⟨rfl, rfl, fun i hi j hj => ?_⟩
      rw [hy.val v' (by rw [o'.1]; exact hi) (by rw [o'.2]; exact hj), h1 i hi j hj, hx.val v (by rw [o.1]; exact hi) (by rw [o.2]; exact hj)]
    · exact hc.elim
  | super t s d a b son ih =>
    rintro (_ | _ | ⟨t', s', d', a', b', son'⟩) o v o' v' hc
    · exact hc.elim
    · exact hc.elim
    · obtain ⟨rfl, rfl, rfl, rfl, h1⟩ := hc
      exact ⟨rfl, rfl, rfl, rfl, fun i j i' j' e e' => ih i j (o.2.2.2 i j) (v i j) (o'.2.2.2 i' j') (v' i' j') (h1 i j i' j' e e')⟩

theorem clone_tot {alloc : Mem K → Nat → Nat} (hal : FreshAlloc alloc) {junk : Nat → K} : ∀ {h : HMat G} {m : Mem K}, FiniteMem m → HOk h → HValid m h →
    Tot (clone alloc junk h m) fun x => Cloned m h x.1 x.2 := by
  intro h
  induction h with
  | rk t s d r =>
    intro m hf ho hv
    obtain ⟨ho1, ho2⟩ := ho
    have c1 := hv.colsA
    have c2 := hv.colsB
    unfold clone
    simp only
    obtain ⟨f1, x1, v1, n1⟩ := allocMat_ext hal (junk := junk) (rows := t.cl.size) (cols := r.k) hf
    have sh1 : (allocMat alloc junk t.cl.size r.k m).1.rows = t.cl.size ∧ (allocMat alloc junk t.cl.size r.k m).1.cols = r.k := ⟨rfl, rfl⟩
    generalize allocMat alloc junk t.cl.size r.k m = a at *
    obtain ⟨f2, x2, v2, n2⟩ := allocMat_ext hal (junk := junk) (rows := s.cl.size) (cols := r.k) f1
    have sh2 : (allocMat alloc junk s.cl.size r.k a.2).1.rows = s.cl.size ∧ (allocMat alloc junk s.cl.size r.k a.2).1.cols = r.k := ⟨rfl, rfl⟩
    generalize allocMat alloc junk s.cl.size r.k a.2 = b at *
    have nB : ∀ c, b.1.Cell c → m c = none := fun c hc => x1.none (n2 c hc)
    have dis : ∀ {A B : Mat} {m : Mem K}, A.Valid m → (∀ c, B.Cell c → m c = none) → Disj A.Cell B.Cell := fun hA hB c h1 h2 => by
      have := valid_cell hA h1
      rw [hB c h2] at this
      exact absurd this (by simp)
    have dAB := dis v1 n2
    have xAll := x1.trans x2
    refine Tot.bind (Dense.copy_tot (xAll.valid hv.A) (x2.valid v1) (dis hv.A n1) false (by rw [sh1.1]; exact ho1.symm) (by rw [sh1.2]; exact c1.symm)) ?_
    rintro m3 - ⟨w1, w2, w3⟩
    refine Tot.bind (Dense.copy_tot (Rk.frame_valid w3 (dis hv.B n1) (xAll.valid hv.B)) (Rk.frame_valid w3 (fun c h h' => dAB c h' h) v2) (dis hv.B nB) false
      (by rw [sh2.1]; exact ho2.symm) (by rw [sh2.2]; exact c2.symm)) ?_
    rintro m4 - ⟨u1, u2, u3⟩
    have ext : Ext m m4 := fun c hc => by
      rw [u3 c (fun h => by rw [nB c h] at hc; exact absurd hc (by simp)), w3 c (fun h => by rw [n1 c h] at hc; exact absurd hc (by simp)), xAll c hc]
    refine Tot.pure ⟨?_, ext, ⟨sh1.1, sh2.1⟩, ⟨Rk.frame_valid u3 dAB w1, u1, dAB, sh1.2, sh2.2⟩, trivial, fun c hc => hc.elim (n1 c) (nB c), ?_, rfl, rfl,
      rfl, rfl, rfl, fun i hi l hl => ?_, fun i hi l hl => ?_⟩
    · refine frame_finite (frame_finite f2 w3 fun c h => valid_cell (x2.valid v1) h) u3 fun c h => ?_
      rw [w3 c fun h' => dAB c h' h]
      exact valid_cell v2 h
    · intro x hx
      simp only [update, hnodes, List.mem_singleton] at hx
      subst hx; rfl
    · show a.1.val m4 i l = _
      rw [Rk.frame_val u3 dAB (by omega) (by omega), w2 i (by omega) l (by omega)]
      show r.A.val b.2 i l = _
      exact xAll.val hv.A (by omega) (by omega)
    · show b.1.val m4 i l = _
      rw [u2 i (by omega) l (by omega)]
      show r.B.val m3 i l = _
      rw [Rk.frame_val w3 (dis hv.B n1) (by omega) (by omega)]
      exact xAll.val hv.B (by omega) (by omega)
  | full t s d f =>
    intro m hf ho hv
    obtain ⟨ho1, ho2⟩ := ho
    replace hv : f.Valid m := hv
    unfold clone
    simp only
    obtain ⟨f1, x1, v1, n1⟩ := allocMat_ext hal (junk := junk) (rows := t.cl.size) (cols := s.cl.size) hf
    have sh1 : (allocMat alloc junk t.cl.size s.cl.size m).1.rows = t.cl.size ∧ (allocMat alloc junk t.cl.size s.cl.size m).1.cols = s.cl.size := ⟨rfl, rfl⟩
    generalize allocMat alloc junk t.cl.size s.cl.size m = a at *
    have dA : Disj f.Cell a.1.Cell := fun c h1 h2 => by
      have := valid_cell hv h1
      rw [n1 c h2] at this
      exact absurd this (by simp)
    refine Tot.bind (Dense.copy_tot (x1.valid hv) v1 dA false (by rw [sh1.1]; exact ho1.symm) (by rw [sh1.2]; exact ho2.symm)) ?_
    rintro m3 - ⟨w1, w2, w3⟩
    refine Tot.pure ⟨frame_finite f1 w3 fun c h => valid_cell v1 h, fun c hc => ?_, sh1, w1, trivial, n1, ?_, rfl, rfl, rfl, rfl, fun i hi j hj => ?_⟩
    · show m3 c = m c
      rw [w3 c (fun h => by rw [n1 c h] at hc; exact absurd hc (by simp)), x1 c hc]
    · intro x hx
      simp only [update, hnodes, List.mem_singleton] at hx
      subst hx; rfl
    · show a.1.val m3 i j = _
      rw [w2 i (by omega) j (by omega)]
      show f.val a.2 i j = _
      exact x1.val hv (by omega) (by omega)
  | super t s d p q son ih =>
    intro m hf ho hv
    obtain ⟨hp, hq, ⟨RR, CC, hRC, sg1, sg2⟩, hos⟩ := ho
    replace hv : ∀ i j, HValid m (son i j) := hv
    unfold clone
    let Inv : (Fin p → Fin q → Prop) → (Fin p → Fin q → HMat G) × Mem K → Prop := fun done st =>
      FiniteMem st.2 ∧ Ext m st.2 ∧ (∀ i j, done i j → Cloned m (son i j) (st.1 i j) st.2) ∧
      ∀ i j i' j', done i j → done i' j' → (i, j) ≠ (i', j') → Disj (HCell (st.1 i j)) (HCell (st.1 i' j'))
    refine Tot.bind (P := fun st => Inv (fun _ _ => True) st) ?_ ?_
    · have := foldFinM_tot (P := fun k st => Inv (fun _ j => j.1 < k) st) (n := q)
        (f := fun j (st : (Fin p → Fin q → HMat G) × Mem K) => foldFinM p (fun i (st : (Fin p → Fin q → HMat G) × Mem K) => do
          let x ← clone alloc junk (son i j) st.2
          pure (fun i' j' => if i' = i ∧ j' = j then x.1 else st.1 i' j', x.2)) st)
        (s := (fun _ _ => full t s 0 ⟨0, 0, 0, 0⟩, m))
        ⟨hf, Ext.refl m, fun i j h => absurd h (Nat.not_lt_zero _), fun i j i' j' h => absurd h (Nat.not_lt_zero _)⟩ (by
          intro j st hst
          have := foldFinM_tot (P := fun k st => Inv (fun i' j' => j'.1 < j.1 ∨ (j' = j ∧ i'.1 < k)) st) (n := p)
            (f := fun i (st : (Fin p → Fin q → HMat G) × Mem K) => do
              let x ← clone alloc junk (son i j) st.2
              pure (fun i' j' => if i' = i ∧ j' = j then x.1 else st.1 i' j', x.2)) (s := st)
            ⟨hst.1, hst.2.1, fun i' j' h => hst.2.2.1 i' j' (h.resolve_right (by omega)), fun a b a' b' h h' =>
              hst.2.2.2 a b a' b' (h.resolve_right (by omega)) (h'.resolve_right (by omega))⟩ (by
              rintro i ⟨tab, m1⟩ ⟨g1, g2, g3, g4⟩
              refine Tot.bind (ih i j g1 (hos i j) (g2.hvalid (hv i j))) ?_
              rintro ⟨h1, m2⟩ - ⟨k1, k2, k3, k4, k5, k6, k7, k8, k9, k10⟩
              simp only at g1 g2 g3 g4 k1 k2 k3 k4 k5 k6 k7 k8 k9 k10
              have new : Cloned m (son i j) h1 m2 := ⟨k1, g2.trans k2, k3, k4, k5, fun c hc => g2.none (k6 c hc), k7, k8, k9,
                HCopyOf.ext g2 (Ext.refl m2) (hos i j) (hv i j) k3 k4 k10⟩
              have old : ∀ i' j', (j'.1 < j.1 ∨ j' = j ∧ i'.1 < i.1) → Cloned m (son i' j') (tab i' j') m2 := fun i' j' hd => by
                obtain ⟨l1, l2, l3, l4, l5, l6, l7, l8, l9, l10⟩ := g3 i' j' hd
                exact ⟨k1, l2.trans k2, l3, k2.hvalid l4, l5, l6, l7, l8, l9, HCopyOf.ext (Ext.refl m) k2 (hos i' j') (hv i' j') l3 l4 l10⟩
              have od : ∀ i' j', (j'.1 < j.1 ∨ j' = j ∧ i'.1 < i.1) → Disj (HCell (tab i' j')) (HCell h1) := fun i' j' hd c h h' => by
                have := hvalid_cell (g3 i' j' hd).2.2.2.1 h
                rw [k6 c h'] at this
                exact absurd this (by simp)
              have cs : ∀ i' j', (j'.1 < j.1 ∨ j' = j ∧ i'.1 < i.1 + 1) → (i' = i ∧ j' = j) ∨ (¬ (i' = i ∧ j' = j) ∧ (j'.1 < j.1 ∨ j' = j ∧ i'.1 < i.1)) := fun i' j' hd => by
                by_cases he : i' = i ∧ j' = j
                · exact .inl he
                · refine .inr ⟨he, hd.imp_right fun h => ⟨h.1, ?_⟩⟩
                  have : i'.1 ≠ i.1 := fun e => he ⟨Fin.ext e, h.1⟩
                  omega
              refine Tot.pure ⟨k1, g2.trans k2, fun i' j' hd => ?_, fun a b a' b' hd hd' hne => ?_⟩
              · rcases cs i' j' hd with ⟨rfl, rfl⟩ | ⟨he, hd⟩
                · simp only [and_self, if_true]; exact new
                · simp only [if_neg he]; exact old i' j' hd
              · rcases cs a b hd with ⟨rfl, rfl⟩ | ⟨he, hd⟩
                · rcases cs a' b' hd' with ⟨rfl, rfl⟩ | ⟨he', hd'⟩
                  · exact absurd rfl hne
                  · simp only [and_self, if_true, if_neg he']
                    exact fun c h h' => od a' b' hd' c h' h
                · rcases cs a' b' hd' with ⟨rfl, rfl⟩ | ⟨he', hd'⟩
                  · simp only [and_self, if_true, if_neg he]
                    exact od a b hd
                  · simp only [if_neg he, if_neg he']
                    exact g4 a b a' b' hd hd' hne)
          refine this.mono fun st' h => ?_
          have dn : ∀ (i' : Fin p) (j' : Fin q), j'.1 < j.1 + 1 → (j'.1 < j.1 ∨ (j' = j ∧ i'.1 < p)) := fun i' j' hj => by
            rcases Nat.lt_or_ge j'.1 j.1 with h | h
            · exact .inl h
            · exact .inr ⟨Fin.ext (by omega), i'.2⟩
          exact ⟨h.1, h.2.1, fun i' j' hj => h.2.2.1 i' j' (dn i' j' hj), fun a b a' b' hb hb' => h.2.2.2 a b a' b' (dn a b hb) (dn a' b' hb')⟩)
      exact this.mono fun st h => ⟨h.1, h.2.1, fun i j _ => h.2.2.1 i j j.2, fun a b a' b' _ _ => h.2.2.2 a b a' b' b.2 b'.2⟩
    · rintro ⟨tab, m1⟩ - ⟨g1, g2, g3, g4⟩
      simp only at g1 g2 g3 g4
      refine Tot.pure ⟨g1, g2, ⟨hp, hq, ⟨RR, CC, fun i j => ?_, sg1, sg2⟩, fun i j => (g3 i j trivial).2.2.1⟩, fun i j => (g3 i j trivial).2.2.2.1,
        ⟨fun a b a' b' h => g4 a b a' b' trivial trivial h, fun i j => (g3 i j trivial).2.2.2.2.1⟩, ?_, ?_, rfl, rfl, rfl, rfl, rfl, rfl, ?_⟩
      · obtain ⟨-, -, -, -, -, -, -, e1, e2, -⟩ := g3 i j trivial
        rw [e1, e2]; exact hRC i j
      · rintro c ⟨i, j, hc⟩
        exact (g3 i j trivial).2.2.2.2.2.1 c hc
      · intro x hx
        simp only [update] at hx
        rw [hnodes, List.mem_cons] at hx
        rcases hx with rfl | hx
        · rw [hnodes_length_super]
          simp only [desc, foldFin2_sum]
          congr 1
          refine Finset.sum_congr rfl fun j _ => Finset.sum_congr rfl fun i _ => (g3 i j trivial).2.2.2.2.2.2.1 _ ?_
          cases tab i j <;> simp [hnodes]
        · simp only [List.mem_flatMap, List.mem_finRange, true_and] at hx
          obtain ⟨j, i, hx⟩ := hx
          exact (g3 i j trivial).2.2.2.2.2.2.1 x hx
      · intro i j i' j' e e'
        obtain rfl : i = i' := Fin.ext e
        obtain rfl : j = j' := Fin.ext e'
        exact (g3 i j trivial).2.2.2.2.2.2.2.2.2

/-- functions of the leaves that agree for copies -/
theorem hleaves_copy {β : Type _} {m m' : Mem K} {F F' : HMat G → β}
    (hF : ∀ l l', HCopyOf m m' l l' → (∀ t s d a b son, l ≠ .super t s d a b son) → F' l' = F l) :
    ∀ {h h' : HMat G}, HCopyOf m m' h h' → (hleaves h').map F' = (hleaves h).map F := by
  intro h
  induction h with
  | rk t s d r =>
    rintro (⟨t', s', d', r'⟩ | _ | _) hc
    · simp only [hleaves, List.map_cons, List.map_nil]
      rw [hF _ _ hc (fun _ _ _ _ _ _ h => by cases h)]
    · exact hc.elim
    · exact hc.elim
  | full t s d f =>
    rintro (_ | ⟨t', s', d', r'⟩ | _) hc
    · exact hc.elim
    · simp only [hleaves, List.map_cons, List.map_nil]
      rw [hF _ _ hc (fun _ _ _ _ _ _ h => by cases h)]
    · exact hc.elim
  | super t s d a b son ih =>
    rintro (_ | _ | ⟨t', s', d', a', b', son'⟩) hc
    · exact hc.elim
    · exact hc.elim
    · obtain ⟨rfl, rfl, rfl, rfl, h1⟩ := hc
      simp only [hleaves, List.map_flatMap]
      refine List.flatMap_congr fun j _ => List.flatMap_congr fun i _ => ?_
      exact ih i j (h1 i j i j rfl rfl)

theorem leafVal_copy {m m' : Mem K} {l l' : HMat G} (hc : HCopyOf m m' l l') (hl : ∀ t s d a b son, l ≠ .super t s d a b son) :
    l'.rc = l.rc ∧ l'.cc = l.cc ∧ ∀ i < l.rc.cl.size, ∀ j < l.cc.cl.size, leafVal m' l' i j = leafVal m l i j := by
  cases l with
  | rk t s d r =>
    cases l' with
    | rk t' s' d' r' =>
      obtain ⟨rfl, rfl, h1, h2, h3⟩ := hc
      refine ⟨rfl, rfl, fun i hi j hj => ?_⟩
      simp only [leafVal, Rk.val, h1]
      refine Finset.sum_congr rfl fun l hl => ?_
      rw [h2 i hi l (Finset.mem_range.mp hl), h3 j hj l (Finset.mem_range.mp hl)]
    | full => exact hc.elim
    | super => exact hc.elim
  | full t s d f =>
    cases l' with
    | rk => exact hc.elim
    | full t' s' d' f' =>
      obtain ⟨rfl, rfl, h1⟩ := hc
      exact ⟨rfl, rfl, h1⟩
    | super => exact hc.elim
  | super => exact absurd rfl (hl _ _ _ _ _ _)

theorem dense_copy {m m' : Mem K} {h h' : HMat G} (hc : HCopyOf m m' h h') (ridx cidx : Nat → Nat) (a b : Nat) :
    dense ridx cidx m' h' a b = dense ridx cidx m h a b := by
  unfold dense
  congr 1
  refine hleaves_copy (fun l l' hc hl => ?_) hc
  obtain ⟨e1, e2, e3⟩ := leafVal_copy hc hl
  rw [e1, e2]
  refine Finset.sum_congr rfl fun i hi => Finset.sum_congr rfl fun j hj => ?_
  rw [e3 i (Finset.mem_range.mp hi) j (Finset.mem_range.mp hj)]

theorem place_copy {m m' : Mem K} {h h' : HMat G} (hc : HCopyOf m m' h h') (r c : Nat) : place m' h' r c = place m h r c := by
  unfold place
  congr 1
  refine hleaves_copy (fun l l' hc hl => ?_) hc
  obtain ⟨e1, e2, e3⟩ := leafVal_copy hc hl
  rw [e1, e2]
  split
  · rw [e3 _ (by omega) _ (by omega)]
  · rfl

theorem cell_valid {a : Mat} {m m' : Mem K} (e : ∀ c, a.Cell c → m' c = m c) (h : a.Valid m) : a.Valid m' :=
  ⟨h.1, fun i hi j hj => by rw [e _ ⟨i, hi, j, hj, rfl⟩]; exact h.2 i hi j hj⟩
theorem cell_val {a : Mat} {m m' : Mem K} (e : ∀ c, a.Cell c → m' c = m c) {i j : Nat} (hi : i < a.rows) (hj : j < a.cols) : a.val m' i j = a.val m i j := by
  unfold Mat.val; rw [e _ ⟨i, hi, j, hj, rfl⟩]

theorem cells_valid {m m' : Mem K} : ∀ {a : HMat G}, (∀ c, HCell a c → m' c = m c) → HValid m a → HValid m' a
  | .rk _ _ _ _, e, hv => ⟨cell_valid (fun c h => e c (.inl h)) hv.A, cell_valid (fun c h => e c (.inr h)) hv.B, hv.disj, hv.colsA, hv.colsB⟩
  | .full _ _ _ _, e, hv => cell_valid e hv
  | .super _ _ _ _ _ _, e, hv => fun i j => cells_valid (fun c h => e c ⟨i, j, h⟩) (hv i j)

theorem cells_copy {m m1 m2 : Mem K} : ∀ {h h' : HMat G}, (∀ c, HCell h' c → m2 c = m1 c) → HOk h' → HValid m1 h' → HOk h → HValid m h → HCopyOf m m1 h h' →
    HCopyOf m m2 h h' := by
  intro h
  induction h with
  | rk t s d r =>
    rintro (⟨t', s', d', r'⟩ | _ | _) e o' v' o v hc
    · obtain ⟨rfl, rfl, h1, h2, h3⟩ := hc
      have a3 := v'.colsA; have a4 := v'.colsB
      refine ⟨rfl, rfl, h1, fun i hi l hl => ?_, fun i hi l hl => ?_⟩
      · rw [cell_val (fun c h => e c (.inl h)) (by rw [o'.1]; exact hi) (by omega), h2 i hi l hl]
      · rw [cell_val (fun c h => e c (.inr h)) (by rw [o'.2]; exact hi) (by omega), h3 i hi l hl]
    · exact hc.elim
    · exact hc.elim
  | full t s d f =>
    rintro (_ | ⟨t', s', d', f'⟩ | _) e o' v' o v hc
    · exact hc.elim
    · obtain ⟨rfl, rfl, h1⟩ := hc
      exact ⟨rfl, rfl, fun i hi j hj => by rw [cell_val e (by rw [o'.1]; exact hi) (by rw [o'.2]; exact hj), h1 i hi j hj]⟩
    · exact hc.elim
  | super t s d a b son ih =>
    rintro (_ | _ | ⟨t', s', d', a', b', son'⟩) e o' v' o v hc
    · exact hc.elim
    · exact hc.elim
    · obtain ⟨rfl, rfl, rfl, rfl, h1⟩ := hc
      exact ⟨rfl, rfl, rfl, rfl, fun i j i' j' e1 e2 => ih i j (fun c h => e c ⟨i', j', h⟩) (o'.2.2.2 i' j') (v' i' j') (o.2.2.2 i j) (v i j) (h1 i j i' j' e1 e2)⟩

end HMat
end H2
