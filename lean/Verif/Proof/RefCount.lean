import Verif.Spec.RefCount
import Mathlib.Algebra.Order.BigOperators.Group.Finset
import Mathlib.Tactic.Ring

set_option linter.unusedSectionVars false

namespace H2.RefC

theorem upd_self {α : Type _} (f : Nat → α) (p : Nat) (x : α) : upd f p x p = x := by simp [upd]
theorem upd_ne {α : Type _} (f : Nat → α) {p q : Nat} (x : α) (h : q ≠ p) : upd f p x q = f q := by simp [upd, h]
theorem updB_self {α : Type _} (f : Bool → α) (s : Bool) (x : α) : updB f s x s = x := by simp [updB]
theorem updB_ne {α : Type _} (f : Bool → α) {s t : Bool} (x : α) (h : t ≠ s) : updB f s x t = f t := by simp [updB, h]

theorem getObj_ok {h : Heap} {p : Nat} {o : Obj} (e : h.obj p = some o) : h.getObj p = .ok o := by
  simp [Heap.getObj, e]
theorem getUni_ok {h : Heap} {v : Nat} {u : Unif} (e : h.uni v = some u) : h.getUni v = .ok u := by
  simp [Heap.getUni, e]

theorem sum_change {f f' : Nat → Nat} {N q : Nat} (hq : q < N) (h : ∀ k, k ≠ q → f' k = f k) :
    ∑ k ∈ Finset.range N, f' k + f q = ∑ k ∈ Finset.range N, f k + f' q := by
  have hm : q ∈ Finset.range N := Finset.mem_range.mpr hq
  rw [← Finset.add_sum_erase _ f' hm, ← Finset.add_sum_erase _ f hm]
  have : ∑ k ∈ (Finset.range N).erase q, f' k = ∑ k ∈ (Finset.range N).erase q, f k :=
    Finset.sum_congr rfl fun k hk => h k (Finset.ne_of_mem_erase hk)
  omega

/-! ### lists -/

theorem linked_congr {h h' : Heap} {s : Bool} : ∀ {L : List Nat} {prev head : Option Nat},
    (∀ v ∈ L, ∀ u, h.uni v = some u → ∃ u', h'.uni v = some u' ∧ u'.prev s = u.prev s ∧ u'.next s = u.next s) →
    Linked h s prev L head → Linked h' s prev L head
  | [], _, _, _, hl => hl
  | v :: L, _, _, e, ⟨h1, u, h2, h3, h4⟩ => by
    obtain ⟨u', e1, e2, e3⟩ := e v (List.mem_cons_self) u h2
    refine ⟨h1, u', e1, by rw [e2, h3], ?_⟩
    rw [e3]
    exact linked_congr (fun w hw => e w (List.mem_cons_of_mem _ hw)) h4

def Seg (h : Heap) (s : Bool) : Option Nat → List Nat → Option Nat → Option Nat → Prop
  | _, [], head, nx => head = nx
  | prev, v :: L, head, nx => head = some v ∧ ∃ u, h.uni v = some u ∧ u.prev s = prev ∧ Seg h s (some v) L (u.next s) nx

def lastOr : Option Nat → List Nat → Option Nat
  | p, [] => p
  | _, a :: A => lastOr (some a) A

theorem lastOr_cases (p : Option Nat) : ∀ (A : List Nat), (A = [] ∧ lastOr p A = p) ∨ ∃ a ∈ A, lastOr p A = some a
  | [] => .inl ⟨rfl, rfl⟩
  | a :: A => by
    refine .inr ?_
    rcases lastOr_cases (some a) A with ⟨h, e⟩ | ⟨b, hb, e⟩
    · exact ⟨a, List.mem_cons_self, by rw [lastOr, e]⟩
    · exact ⟨b, List.mem_cons_of_mem _ hb, by rw [lastOr, e]⟩

theorem linked_append {h : Heap} {s : Bool} {B : List Nat} : ∀ {A : List Nat} {prev head : Option Nat},
    Linked h s prev (A ++ B) head ↔ ∃ m, Seg h s prev A head m ∧ Linked h s (lastOr prev A) B m
  | [], prev, head => by simp [Seg, lastOr]
  | a :: A, prev, head => by
    simp only [List.cons_append, Linked, Seg, lastOr, linked_append (A := A)]
    constructor
    · rintro ⟨h1, u, h2, h3, m, h4, h5⟩; exact ⟨m, ⟨h1, u, h2, h3, h4⟩, h5⟩
    · rintro ⟨m, ⟨h1, u, h2, h3, h4⟩, h5⟩; exact ⟨h1, u, h2, h3, m, h4, h5⟩

/-- change of the successor of the last element -/
theorem seg_last {h h' : Heap} {s : Bool} {nx nx' : Option Nat} : ∀ {A : List Nat} {prev head : Option Nat}, A.Nodup →
    Seg h s prev A head nx →
    (∀ w ∈ A, ∀ u, h.uni w = some u → ∃ u', h'.uni w = some u' ∧ u'.prev s = u.prev s ∧
      u'.next s = if lastOr prev A = some w then nx' else u.next s) →
    Seg h' s prev A (if A = [] then nx' else head) nx'
  | [], _, _, _, _, _ => by simp [Seg]
  | a :: A, prev, head, hn, ⟨h1, u, h2, h3, h4⟩, e => by
    obtain ⟨u', e1, e2, e3⟩ := e a List.mem_cons_self u h2
    rw [if_neg (by simp)]
    refine ⟨h1, u', e1, by rw [e2, h3], ?_⟩
    have hn' := List.nodup_cons.mp hn
    rw [e3]
    rcases lastOr_cases (some a) A with ⟨hA, e4⟩ | ⟨b, hb, e4⟩
    · subst hA
      simp [lastOr, Seg]
    · have hba : b ≠ a := fun e => hn'.1 (e ▸ hb)
      have := seg_last (nx' := nx') hn'.2 h4 (fun w hw u hu => e w (List.mem_cons_of_mem _ hw) u hu)
      rw [if_neg (by rintro rfl; simp at hb)] at this
      rw [lastOr, e4, if_neg (by simpa using hba)]
      exact this

/-- removing `v` from a list -/
theorem linked_unlink {h h' : Heap} {s : Bool} {A C : List Nat} {v : Nat} {head : Option Nat} {u : Unif}
    (hn : (A ++ v :: C).Nodup) (hl : Linked h s none (A ++ v :: C) head) (hu : h.uni v = some u)
    (e : ∀ w x, h.uni w = some x → ∃ x', h'.uni w = some x' ∧
      x'.prev s = (if u.next s = some w then u.prev s else x.prev s) ∧
      x'.next s = (if u.prev s = some w then u.next s else x.next s)) :
    Linked h' s none (A ++ C) (if head = some v then u.next s else head) := by
  obtain ⟨m, h1, h2, u', h3, h4, h5⟩ := linked_append.mp hl
  obtain rfl : u' = u := by rw [hu] at h3; exact (Option.some.inj h3).symm
  rw [List.nodup_append] at hn
  obtain ⟨nA, nC, hd⟩ := hn
  have nC' := List.nodup_cons.mp nC
  have hnx : ∀ w, u'.next s = some w → w ∈ C := by
    intro w hw
    cases C with
    | nil => rw [h5] at hw; cases hw
    | cons c C => rw [h5.1] at hw; cases hw; exact List.mem_cons_self
  have hpv : ∀ w, u'.prev s = some w → w ∈ A := by
    intro w hw
    rcases lastOr_cases none A with ⟨_, e4⟩ | ⟨b, hb, e4⟩
    · rw [h4, e4] at hw; cases hw
    · rw [h4, e4] at hw; cases hw; exact hb
  refine linked_append.mpr ⟨u'.next s, ?_, ?_⟩
  · have := seg_last (h' := h') (nx' := u'.next s) nA h1 (fun w hw x hx => ?_)
    · convert this using 1
      have : (head = some v) ↔ A = [] := by
        cases A with
        | nil => simp only [Seg] at h1; rw [h1, h2]; simp
        | cons a A =>
          rw [h1.1]
          simp only [Option.some.injEq, reduceCtorEq, iff_false]
          intro e; exact hd a List.mem_cons_self v List.mem_cons_self e
      by_cases hA : A = []
      · rw [if_pos hA, if_pos (this.mpr hA)]
      · rw [if_neg hA, if_neg fun e => hA (this.mp e)]
    · obtain ⟨x', e1, e2, e3⟩ := e w x hx
      refine ⟨x', e1, ?_, ?_⟩
      · rw [e2, if_neg fun e => hd w hw w (List.mem_cons_of_mem _ (hnx w e)) rfl]
      · rw [e3, h4]
  · have keep : ∀ w ∈ C, w ∉ A := fun w hw hA => hd w hA w (List.mem_cons_of_mem _ hw) rfl
    cases C with
    | nil => exact h5
    | cons c C =>
      obtain ⟨g1, x, g2, g3, g4⟩ := h5
      obtain ⟨x', e1, e2, e3⟩ := e c x g2
      rw [if_pos g1, h4] at e2
      rw [if_neg fun e => keep c List.mem_cons_self (hpv c e)] at e3
      refine ⟨g1, x', e1, e2, ?_⟩
      rw [e3]
      refine linked_congr (fun w hw y hy => ?_) g4
      obtain ⟨y', f1, f2, f3⟩ := e w y hy
      refine ⟨y', f1, ?_, ?_⟩
      · rw [f2, if_neg]
        rw [g1]
        rintro e; cases e
        exact (List.nodup_cons.mp nC'.2).1 hw
      · rw [f3, if_neg fun e => keep w (List.mem_cons_of_mem _ hw) (hpv w e)]

/-! ### invariant -/

/-- Objects and uniform matrices in the middle of an operation: `zo` objects that are being created or deleted, `zp` objects
that are being changed, `z` uniform matrices without a basis on one side. -/
structure Ex where
  zo : Nat → Bool
  zp : Nat → Bool
  z : Bool → Nat → Bool

def Ex.none : Ex := ⟨fun _ => false, fun _ => false, fun _ _ => false⟩
def Ex.addo (X : Ex) (p : Nat) : Ex := ⟨upd X.zo p true, X.zp, X.z⟩
def Ex.addp (X : Ex) (p : Nat) : Ex := ⟨X.zo, upd X.zp p true, X.z⟩
def Ex.addz (X : Ex) (s : Bool) (v : Nat) : Ex := ⟨X.zo, X.zp, updB X.z s (upd (X.z s) v true)⟩

def F (h : Heap) (X : Ex) (q : Nat) : List (Option Nat) := if X.zo q || X.zp q then [] else fields h q
def U (h : Heap) (X : Ex) (q : Nat) : Option Nat := if X.zo q then none else ownedOf h q
def B (h : Heap) (X : Ex) (s : Bool) (v : Nat) : Option Nat := if X.z s v then none else basisOf h s v

def cF (N : Nat) (h : Heap) (X : Ex) (p : Nat) : Nat := ∑ q ∈ Finset.range N, (F h X q).count (some p)
def tB (h : Heap) (X : Ex) (p v : Nat) : Nat :=
  (if B h X false v = some p then 1 else 0) + (if B h X true v = some p then 1 else 0)
def cB (N : Nat) (h : Heap) (X : Ex) (p : Nat) : Nat := ∑ v ∈ Finset.range N, tB h X p v
def cU (N : Nat) (h : Heap) (X : Ex) (v : Nat) : Nat := ∑ q ∈ Finset.range N, if U h X q = some v then 1 else 0

structure Inv (N : Nat) (T : Nat → Bool) (h : Heap) (X : Ex) (ext extU : Nat → Nat) : Prop where
  bnd : ∀ p, N ≤ p → h.obj p = none ∧ h.uni p = none
  refs : ∀ p o, h.obj p = some o → o.refs = ext p + cF N h X p + cB N h X p
  dead : ∀ p, h.obj p = none → ext p + cF N h X p + cB N h X p = 0
  zomb : ∀ p, X.zo p = true → ∃ o, h.obj p = some o ∧ o.refs = 0
  uni : ∀ v, (if (h.uni v).isSome then 1 else 0) = extU v + cU N h X v
  compl : ∀ p o, h.obj p = some o → 0 < o.refs → none ∉ fields h p
  lists : ∀ p o, h.obj p = some o → ∀ s, ∃ L, Linked h s none L (o.list s) ∧ L.Nodup ∧
    ∀ v, v ∈ L ↔ B h X s v = some p
  ty : ∀ p o, h.obj p = some o → o.bas = T p
  tyF : ∀ p q, T p = true → some q ∈ fields h p → T q = true
  tyU : ∀ p o, h.obj p = some o → T p = true → o.u = none
  tyB : ∀ v s p, B h X s v = some p → T p = true
  att : ∀ v u s, h.uni v = some u → X.z s v = false → u.basis s ≠ none

structure Evo (h h' : Heap) : Prop where
  obj : ∀ q o', h'.obj q = some o' → ∃ o, h.obj q = some o ∧ o'.son = o.son ∧ o'.own = o.own ∧ o'.u = o.u ∧ o'.bas = o.bas ∧
    o'.refs ≤ o.refs ∧ (o'.refs = 0 → o.refs = 0)
  float : ∀ q o, h.obj q = some o → o.refs = 0 → ∃ o', h'.obj q = some o'
  uni : ∀ v u', h'.uni v = some u' → ∃ u, h.uni v = some u ∧ u'.basis = u.basis

theorem Evo.refl (h : Heap) : Evo h h :=
  ⟨fun _ o e => ⟨o, e, rfl, rfl, rfl, rfl, le_rfl, id⟩, fun _ o e _ => ⟨o, e⟩, fun _ u e => ⟨u, e, rfl⟩⟩

theorem Evo.float' {h h' : Heap} (e : Evo h h') {q : Nat} {o : Obj} (h1 : h.obj q = some o) (h2 : o.refs = 0) :
    ∃ o', h'.obj q = some o' ∧ o'.son = o.son ∧ o'.own = o.own ∧ o'.u = o.u ∧ o'.refs = 0 := by
  obtain ⟨o', h3⟩ := e.float q o h1 h2
  obtain ⟨o2, h4, h5, h6, h7, _, h8, _⟩ := e.obj q o' h3
  rw [h1] at h4; cases h4
  exact ⟨o', h3, h5, h6, h7, by omega⟩

theorem Evo.trans {h h' h'' : Heap} (e : Evo h h') (e' : Evo h' h'') : Evo h h'' := by
  refine ⟨fun q o'' h1 => ?_, fun q o h1 h2 => ?_, fun v u'' h1 => ?_⟩
  · obtain ⟨o', h2, a1, a2, a3, a6, a5, a4⟩ := e'.obj q o'' h1
    obtain ⟨o, h3, b1, b2, b3, b6, b5, b4⟩ := e.obj q o' h2
    exact ⟨o, h3, a1.trans b1, a2.trans b2, a3.trans b3, a6.trans b6, a5.trans b5, fun h => b4 (a4 h)⟩
  · obtain ⟨o', h3, _, _, _, h4⟩ := e.float' h1 h2
    exact e'.float q o' h3 h4
  · obtain ⟨u', h2, a1⟩ := e'.uni v u'' h1
    obtain ⟨u, h3, b1⟩ := e.uni v u' h2
    exact ⟨u, h3, a1.trans b1⟩

/-! ### heap updates -/

theorem fields_setObj {h : Heap} {p : Nat} {o' : Obj} (q : Nat) :
    fields (h.setObj p o') q = if q = p then o'.son ++ o'.own else fields h q := by
  unfold fields Heap.setObj upd
  by_cases e : q = p <;> simp [e]
theorem ownedOf_setObj {h : Heap} {p : Nat} {o' : Obj} (q : Nat) :
    ownedOf (h.setObj p o') q = if q = p then o'.u else ownedOf h q := by
  unfold ownedOf Heap.setObj upd
  by_cases e : q = p <;> simp [e]
theorem basisOf_setUni {h : Heap} {v : Nat} {u : Unif} (s : Bool) (w : Nat) :
    basisOf (h.setUni v u) s w = if w = v then u.basis s else basisOf h s w := by
  unfold basisOf Heap.setUni upd
  by_cases e : w = v <;> simp [e]
theorem fields_some {h : Heap} {p : Nat} {o : Obj} (e : h.obj p = some o) : fields h p = o.son ++ o.own := by
  simp [fields, e]
theorem ownedOf_some {h : Heap} {p : Nat} {o : Obj} (e : h.obj p = some o) : ownedOf h p = o.u := by
  simp [ownedOf, e]
theorem basisOf_some {h : Heap} {v : Nat} {u : Unif} (e : h.uni v = some u) (s : Bool) : basisOf h s v = u.basis s := by
  simp [basisOf, e]

/-- A change that leaves all pointers between objects alone. -/
structure SameRefs (h h' : Heap) (X X' : Ex) : Prop where
  F : ∀ q, F h' X' q = F h X q
  U : ∀ q, U h' X' q = U h X q
  B : ∀ s v, B h' X' s v = B h X s v

theorem SameRefs.cF {h h' : Heap} {X X' : Ex} (e : SameRefs h h' X X') (N p : Nat) : cF N h' X' p = cF N h X p := by
  unfold RefC.cF; simp only [e.F]
theorem SameRefs.cB {h h' : Heap} {X X' : Ex} (e : SameRefs h h' X X') (N p : Nat) : cB N h' X' p = cB N h X p := by
  unfold RefC.cB tB; simp only [e.B]
theorem SameRefs.cU {h h' : Heap} {X X' : Ex} (e : SameRefs h h' X X') (N p : Nat) : cU N h' X' p = cU N h X p := by
  unfold RefC.cU; simp only [e.U]

def ad (ext : Nat → Nat) (p : Nat) : Nat → Nat := fun q => ext q + if q = p then 1 else 0
def adl (ext : Nat → Nat) (l : List (Option Nat)) : Nat → Nat := fun q => ext q + l.count (some q)
def ado (ext : Nat → Nat) (v : Option Nat) : Nat → Nat := fun q => ext q + if v = some q then 1 else 0

theorem adl_nil (ext : Nat → Nat) : adl ext [] = ext := by funext q; simp [adl]
theorem adl_cons (ext : Nat → Nat) (p : Nat) (l : List (Option Nat)) :
    adl ext (some p :: l) = ad (adl ext l) p := by
  funext q
  simp only [adl, ad, List.count_cons]
  by_cases e : p = q
  · simp [e, Nat.add_assoc]
  · have e' : ¬ q = p := fun h => e h.symm
    simp [e, e']

/-- number of objects that can still be deleted -/
def lc (N : Nat) (h : Heap) (X : Ex) : Nat :=
  ∑ q ∈ Finset.range N, if (h.obj q).isSome ∧ X.zo q = false then 1 else 0

theorem lc_mono {N : Nat} {h h' : Heap} {X X' : Ex} (e : ∀ q, (h'.obj q).isSome → (h.obj q).isSome)
    (hz : ∀ q, X'.zo q = false → X.zo q = false) : lc N h' X' ≤ lc N h X := by
  refine Finset.sum_le_sum fun q _ => ?_
  by_cases h1 : (h'.obj q).isSome ∧ X'.zo q = false
  · rw [if_pos h1, if_pos ⟨e q h1.1, hz q h1.2⟩]
  · rw [if_neg h1]; exact Nat.zero_le _

theorem Evo.lc {N : Nat} {h h' : Heap} {X : Ex} (e : Evo h h') : lc N h' X ≤ lc N h X :=
  lc_mono (fun q hq => by
    obtain ⟨o, ho⟩ := Option.isSome_iff_exists.mp hq
    obtain ⟨o', h', _⟩ := e.obj q o ho
    rw [h']; rfl) fun _ h => h

theorem lc_addo {N : Nat} {h : Heap} {X : Ex} {p : Nat} (hp : p < N) (hl : (h.obj p).isSome) (hz : X.zo p = false) :
    lc N h (X.addo p) + 1 = lc N h X := by
  have := sum_change (f := fun q => if (h.obj q).isSome ∧ X.zo q = false then 1 else 0)
    (f' := fun q => if (h.obj q).isSome ∧ (X.addo p).zo q = false then 1 else 0) hp (fun k hk => by
      simp only [Ex.addo, upd_ne _ _ hk])
  simp only [Ex.addo, upd_self] at this
  rw [if_pos ⟨hl, hz⟩, if_neg (by simp)] at this
  unfold lc
  simpa [Ex.addo] using this

theorem Inv.lt {N : Nat} {T : Nat → Bool} {h : Heap} {X : Ex} {ext eU : Nat → Nat} (I : Inv N T h X ext eU) {p : Nat} {o : Obj}
    (e : h.obj p = some o) : p < N := by
  by_contra hn
  rw [(I.bnd p (by omega)).1] at e; cases e
theorem Inv.ltU {N : Nat} {T : Nat → Bool} {h : Heap} {X : Ex} {ext eU : Nat → Nat} (I : Inv N T h X ext eU) {v : Nat} {u : Unif}
    (e : h.uni v = some u) : v < N := by
  by_contra hn
  rw [(I.bnd v (by omega)).2] at e; cases e

theorem Inv.live {N : Nat} {T : Nat → Bool} {h : Heap} {X : Ex} {ext eU : Nat → Nat} (I : Inv N T h X ext eU) {p : Nat}
    (e : 0 < ext p + cF N h X p + cB N h X p) : ∃ o, h.obj p = some o ∧ 0 < o.refs ∧ X.zo p = false := by
  cases ho : h.obj p with
  | none => have := I.dead p ho; omega
  | some o =>
    have := I.refs p o ho
    refine ⟨o, rfl, by omega, ?_⟩
    by_contra hz
    obtain ⟨o', h1, h2⟩ := I.zomb p (by simpa using hz)
    rw [ho] at h1; cases h1
    omega

theorem Inv.liveU {N : Nat} {T : Nat → Bool} {h : Heap} {X : Ex} {ext eU : Nat → Nat} (I : Inv N T h X ext eU) {v : Nat}
    (e : 0 < eU v + cU N h X v) : ∃ u, h.uni v = some u := by
  have := I.uni v
  cases hu : h.uni v with
  | none => rw [hu] at this; simp at this; omega
  | some u => exact ⟨u, rfl⟩

theorem cB_pos {N : Nat} {h : Heap} {X : Ex} {s : Bool} {v p : Nat} (hv : v < N) (e : B h X s v = some p) :
    0 < cB N h X p := by
  refine lt_of_lt_of_le ?_ (Finset.single_le_sum (f := fun v => tB h X p v) (fun _ _ => Nat.zero_le _) (Finset.mem_range.mpr hv))
  unfold tB
  cases s
  · rw [if_pos e]; omega
  · rw [if_pos (c := B h X true v = some p) e]; omega

theorem Inv.basis_live {N : Nat} {T : Nat → Bool} {h : Heap} {X : Ex} {ext eU : Nat → Nat} (I : Inv N T h X ext eU) {s : Bool} {v p : Nat}
    (e : B h X s v = some p) : ∃ o, h.obj p = some o ∧ 0 < o.refs ∧ X.zo p = false := by
  have hv : v < N := by
    by_contra hn
    have := (I.bnd v (by omega)).2
    unfold B basisOf at e
    rw [this] at e; simp at e
  have := cB_pos hv e
  exact I.live (by omega)

/-! ### releasing -/

/-- the effect of releasing cluster bases -/
structure EvoC (T : Nat → Bool) (h h' : Heap) : Prop extends Evo h h' where
  nc : ∀ q, T q = false → h'.obj q = h.obj q
  uni' : h'.uni = h.uni

theorem EvoC.refl (T : Nat → Bool) (h : Heap) : EvoC T h h := ⟨Evo.refl h, fun _ _ => rfl, rfl⟩
theorem EvoC.trans {T : Nat → Bool} {h h' h'' : Heap} (e : EvoC T h h') (e' : EvoC T h' h'') : EvoC T h h'' :=
  ⟨e.toEvo.trans e'.toEvo, fun q hq => by rw [e'.nc q hq, e.nc q hq], by rw [e'.uni', e.uni']⟩

/-- `p` will not be deleted by an operation that respects the references `ext`: there is a path from one of these
references, or from an object that was never referenced, that uses no pointer of an object in the middle of an operation. -/
inductive Safe (h : Heap) (X : Ex) (ext : Nat → Nat) : Nat → Prop
  | root {p : Nat} : 0 < ext p → Safe h X ext p
  | float {p : Nat} {o : Obj} : h.obj p = some o → o.refs = 0 → X.zo p = false → Safe h X ext p
  | step {a b : Nat} : Safe h X ext a → X.zo a = false → X.zp a = false → some b ∈ fields h a → Safe h X ext b

theorem Safe.mono {h : Heap} {X : Ex} {ext ext' : Nat → Nat} {p : Nat} (hs : Safe h X ext p) (hle : ∀ q, ext q ≤ ext' q) :
    Safe h X ext' p := by
  induction hs with
  | root h1 => exact .root (lt_of_lt_of_le h1 (hle _))
  | float h1 h2 h3 => exact .float h1 h2 h3
  | step _ h2 h3 h4 ih => exact .step ih h2 h3 h4

theorem fields_live {h : Heap} {a : Nat} {x : Option Nat} (hx : x ∈ fields h a) : ∃ o, h.obj a = some o := by
  cases ho : h.obj a with
  | none => simp [fields, ho] at hx
  | some o => exact ⟨o, rfl⟩

theorem cF_pos {N : Nat} {h : Heap} {X : Ex} {a b : Nat} (ha : a < N) (h1 : X.zo a = false) (h2 : X.zp a = false)
    (hb : some b ∈ fields h a) : 0 < cF N h X b := by
  unfold cF
  refine lt_of_lt_of_le ?_ (Finset.single_le_sum (f := fun q => (F h X q).count (some b))
    (fun _ _ => Nat.zero_le _) (Finset.mem_range.mpr ha))
  refine List.count_pos_iff.mpr ?_
  simp [F, h1, h2, hb]

theorem Safe.live {N : Nat} {T : Nat → Bool} {h : Heap} {X : Ex} {ext eU : Nat → Nat} (I : Inv N T h X ext eU) {p : Nat}
    (hs : Safe h X ext p) : ∃ o, h.obj p = some o ∧ X.zo p = false := by
  cases hs with
  | root h1 =>
    obtain ⟨o, h2, _, h3⟩ := I.live (p := p) (by omega)
    exact ⟨o, h2, h3⟩
  | float h1 h2 h3 => exact ⟨_, h1, h3⟩
  | step h1 h2 h3 h4 =>
    obtain ⟨oa, hoa⟩ := fields_live h4
    have := cF_pos (I.lt hoa) h2 h3 h4
    obtain ⟨o, h2, _, h3⟩ := I.live (p := p) (by omega)
    exact ⟨o, h2, h3⟩

theorem Safe.evo {N : Nat} {T : Nat → Bool} {h h' : Heap} {X : Ex} {ext ext' eU : Nat → Nat}
    (e1 : ∀ q o', h'.obj q = some o' → ∃ o, h.obj q = some o ∧ o'.son = o.son ∧ o'.own = o.own ∧ o'.u = o.u ∧ o'.bas = o.bas ∧
      o'.refs ≤ o.refs ∧ (o'.refs = 0 → o.refs = 0))
    (e2 : ∀ q o, h.obj q = some o → o.refs = 0 → ∃ o', h'.obj q = some o') (I : Inv N T h' X ext' eU)
    (hle : ∀ q, ext q ≤ ext' q) {p : Nat} (hs : Safe h X ext p) : Safe h' X ext p := by
  induction hs with
  | root h1 => exact .root h1
  | float h1 h2 h3 =>
    obtain ⟨o', h4⟩ := e2 _ _ h1 h2
    obtain ⟨o2, h5, _, _, _, _, h6, _⟩ := e1 _ o' h4
    rw [h1] at h5; cases h5
    exact .float h4 (by omega) h3
  | step h1 h2 h3 h4 ih =>
    refine .step ih h2 h3 ?_
    obtain ⟨o', h5, _⟩ := (ih.mono hle).live I
    obtain ⟨o, h6, h7, h8, _⟩ := e1 _ o' h5
    rw [fields_some h5, h7, h8, ← fields_some h6]
    exact h4

/-- objects in the middle of a change will not be deleted -/
def Prot (h : Heap) (X : Ex) (ext : Nat → Nat) : Prop := ∀ p, X.zp p = true → Safe h X ext p

theorem Prot.evo {N : Nat} {T : Nat → Bool} {h h' : Heap} {X : Ex} {ext ext' eU : Nat → Nat} (P : Prot h X ext) (E : Evo h h')
    (I : Inv N T h' X ext' eU) (hle : ∀ q, ext q ≤ ext' q) : Prot h' X ext :=
  fun p hp => (P p hp).evo E.obj E.float I hle
theorem Prot.mono {h : Heap} {X : Ex} {ext ext' : Nat → Nat} (P : Prot h X ext) (hle : ∀ q, ext q ≤ ext' q) :
    Prot h X ext' := fun p hp => (P p hp).mono hle

theorem le_adl (ext : Nat → Nat) (l : List (Option Nat)) (q : Nat) : ext q ≤ adl ext l q := Nat.le_add_right _ _

/-- what the recursion may assume about `unref` for cluster bases one level below -/
def UnrefC (N : Nat) (T : Nat → Bool) (n : Nat) (f : Nat → Heap → R Heap) : Prop :=
  ∀ h X ext eU p, T p = true → Inv N T h X (ad ext p) eU → Prot h X ext → lc N h X ≤ n →
    Tot (f p h) fun h' => Inv N T h' X ext eU ∧ EvoC T h h'

/-- what the recursion may assume about `unref` for objects one level below -/
def UnrefOk (N : Nat) (T : Nat → Bool) (n : Nat) (f : Nat → Heap → R Heap) : Prop :=
  ∀ h X ext eU p, (∀ s v, X.z s v = false) → Inv N T h X (ad ext p) eU → Prot h X ext → lc N h X ≤ n →
    Tot (f p h) fun h' => Inv N T h' X ext eU ∧ Evo h h'

theorem unrefList_ok {N n : Nat} {T : Nat → Bool} {f : Nat → Heap → R Heap} (hf : UnrefOk N T n f) :
    ∀ (l : List (Option Nat)) {h : Heap}
    {X : Ex} {ext eU : Nat → Nat}, none ∉ l → (∀ s v, X.z s v = false) → Inv N T h X (adl ext l) eU → Prot h X ext →
    lc N h X ≤ n → Tot (unrefList f l h) fun h' => Inv N T h' X ext eU ∧ Evo h h'
  | [], h, X, ext, eU, _, _, I, _, _ => by
    rw [adl_nil] at I
    exact Tot.pure ⟨I, Evo.refl h⟩
  | none :: l, _, _, _, _, hn, _, _, _, _ => absurd List.mem_cons_self hn
  | some p :: l, h, X, ext, eU, hn, hz, I, P, hl => by
    rw [adl_cons] at I
    refine Tot.bind (hf h X (adl ext l) eU p hz I (P.mono (le_adl _ _)) hl) fun h1 _ ⟨I1, E1⟩ => ?_
    exact (unrefList_ok hf l (fun h => hn (List.mem_cons_of_mem _ h)) hz I1 (P.evo E1 I1 (le_adl _ _)) (E1.lc.trans hl)).mono
      fun h2 ⟨I2, E2⟩ => ⟨I2, E1.trans E2⟩

theorem unrefList_okC {N n : Nat} {T : Nat → Bool} {f : Nat → Heap → R Heap} (hf : UnrefC N T n f) :
    ∀ (l : List (Option Nat)) {h : Heap}
    {X : Ex} {ext eU : Nat → Nat}, none ∉ l → (∀ p, some p ∈ l → T p = true) → Inv N T h X (adl ext l) eU →
    Prot h X ext → lc N h X ≤ n → Tot (unrefList f l h) fun h' => Inv N T h' X ext eU ∧ EvoC T h h'
  | [], h, X, ext, eU, _, _, I, _, _ => by
    rw [adl_nil] at I
    exact Tot.pure ⟨I, EvoC.refl T h⟩
  | none :: l, _, _, _, _, hn, _, _, _, _ => absurd List.mem_cons_self hn
  | some p :: l, h, X, ext, eU, hn, hz, I, P, hl => by
    rw [adl_cons] at I
    refine Tot.bind (hf h X (adl ext l) eU p (hz p List.mem_cons_self) I (P.mono (le_adl _ _)) hl) fun h1 _ ⟨I1, E1⟩ => ?_
    exact (unrefList_okC hf l (fun h => hn (List.mem_cons_of_mem _ h)) (fun q hq => hz q (List.mem_cons_of_mem _ hq))
      I1 (P.evo E1.toEvo I1 (le_adl _ _)) (E1.lc.trans hl)).mono fun h2 ⟨I2, E2⟩ => ⟨I2, E1.trans E2⟩

end H2.RefC
