import Verif.Spec.IO
import Mathlib.Tactic

/-! Files of cluster trees -/

set_option linter.unusedSectionVars false

namespace H2

/-- array after writing the list `l` at position `p` -/
def Arr.ovr {α : Type _} (a : Arr α) (p : Nat) (l : List α) : Arr α :=
  ⟨a.n, fun i => if h : p ≤ i ∧ i - p < l.length then l[i - p]'h.2 else a.v i⟩

/-- the array contains the list `l` at position `p` -/
def Arr.Has {α : Type _} (a : Arr α) (p : Nat) (l : List α) : Prop := p + l.length ≤ a.n ∧ ∀ j (h : j < l.length), a.v (p + j) = l[j]

namespace Arr
variable {α : Type _}

theorem ovr_n (a : Arr α) (p : Nat) (l : List α) : (a.ovr p l).n = a.n := rfl

theorem ovr_nil (a : Arr α) (p : Nat) : a.ovr p [] = a := by
  unfold ovr; cases a; congr 1; funext i; simp

theorem ovr_append (a : Arr α) (p : Nat) (l l' : List α) : (a.ovr p l).ovr (p + l.length) l' = a.ovr p (l ++ l') := by
  unfold ovr
  congr 1
  funext i
  simp only
  by_cases h1 : p + l.length ≤ i ∧ i - (p + l.length) < l'.length
  · rw [dif_pos h1, dif_pos (by rw [List.length_append]; omega), List.getElem_append_right (by omega)]
    congr 1; omega
  · rw [dif_neg h1]
    by_cases h2 : p ≤ i ∧ i - p < l.length
    · rw [dif_pos h2, dif_pos (by rw [List.length_append]; omega), List.getElem_append_left h2.2]
    · rw [dif_neg h2, dif_neg (by rw [List.length_append]; omega)]

theorem ovr_has (a : Arr α) (p : Nat) (l : List α) (h : p + l.length ≤ a.n) : (a.ovr p l).Has p l := by
  refine ⟨h, fun j hj => ?_⟩
  unfold ovr
  simp only
  rw [dif_pos (by omega)]
  congr 1; omega

theorem has_append {a : Arr α} {p : Nat} {l l' : List α} : a.Has p (l ++ l') ↔ a.Has p l ∧ a.Has (p + l.length) l' := by
  unfold Has
  have hl : (l ++ l').length = l.length + l'.length := List.length_append
  constructor
  · rintro ⟨h1, h2⟩
    refine ⟨⟨by omega, fun j hj => ?_⟩, by omega, fun j hj => ?_⟩
    · rw [h2 j (by omega), List.getElem_append_left hj]
    · rw [Nat.add_assoc, h2 _ (by omega), List.getElem_append_right (by omega)]
      congr 1; omega
  · rintro ⟨⟨h1, h2⟩, h3, h4⟩
    refine ⟨by omega, fun j hj => ?_⟩
    by_cases hj' : j < l.length
    · rw [List.getElem_append_left hj']; exact h2 j hj'
    · rw [List.getElem_append_right (by omega), ← h4 (j - l.length) (by omega)]
      congr 1; omega

theorem has_cons {a : Arr α} {p : Nat} {x : α} {l : List α} : a.Has p (x :: l) ↔ (p < a.n ∧ a.v p = x) ∧ a.Has (p + 1) l := by
  rw [← List.singleton_append, has_append]
  simp only [List.length_singleton]
  constructor
  · rintro ⟨⟨h1, h2⟩, h3⟩
    exact ⟨⟨by simpa using h1, by simpa using h2 0 (by simp)⟩, h3⟩
  · rintro ⟨⟨h1, h2⟩, h3⟩
    refine ⟨⟨by simpa using h1, fun j hj => ?_⟩, h3⟩
    have : j = 0 := by simpa using hj
    subst this; simpa using h2

end Arr

namespace Nc
variable {K : Type}

/-- the values of a function as a list -/
def vals {α : Type} (n : Nat) (x : Nat → α) : List α := (List.range n).map x

theorem vals_length {α : Type} (n : Nat) (x : Nat → α) : (vals n x).length = n := by simp [vals]

theorem vals_get {α : Type} (n : Nat) (x : Nat → α) (i : Nat) (h : i < (vals n x).length) : (vals n x)[i] = x i := by simp [vals]

theorem put_ok {α : Type} {a : Arr α} {p n : Nat} {x : Nat → α} (h : p + n ≤ a.n) : put a p n x = .ok (a.ovr p (vals n x)) := by
  unfold put Arr.ovr
  rw [if_pos h]
  congr 2
  funext i
  by_cases hi : p ≤ i ∧ i < p + n
  · rw [if_pos hi, dif_pos (by rw [vals_length]; omega), vals_get]
  · rw [if_neg hi, dif_neg (by rw [vals_length]; omega)]

theorem get_has {α : Type} {a : Arr α} {p n : Nat} {x : Nat → α} (h : a.Has p (vals n x)) : get a p n = .ok (fun i => a.v (p + i)) := by
  unfold get; rw [if_pos (by have := h.1; rwa [vals_length] at this)]

theorem getQ_has {α : Type} {a : Arr α} {p n : Nat} {x old : Nat → α} (h : a.Has p (vals n x)) {j : Nat} (hj : j < n) : getQ a p n old j = x j := by
  unfold getQ
  rw [if_pos (by have := h.1; rwa [vals_length] at this)]
  have := h.2 j (by rw [vals_length]; exact hj)
  rw [this, vals_get]

theorem vals_one {α : Type} (x : α) : vals 1 (fun _ => x) = [x] := rfl

end Nc

namespace Cluster
open Nc Spec
variable {K : Type}

/-- numbers of sons, in the order of the file -/
def preS (t : Cluster K) : List Nat := (nodes t).map (fun s => s.sons.length)
/-- sizes, in the order of the file -/
def preZ (t : Cluster K) : List Nat := (nodes t).map (fun s => s.size)

mutual
/-- boxes, in the order of the file -/
def boxes : Cluster K → List K
  | mk i ss => boxesL ss ++ (vals i.dim i.bmin ++ vals i.dim i.bmax)
def boxesL : List (Cluster K) → List K
  | [] => []
  | s :: ss => boxes s ++ boxesL ss
end

def preSL (l : List (Cluster K)) : List Nat := (nodesL l).map (fun s => s.sons.length)
def preZL (l : List (Cluster K)) : List Nat := (nodesL l).map (fun s => s.size)

mutual
theorem writeCount_eq : ∀ (t : Cluster K) (c : Nat × Nat), writeCount t c = (c.1 + (nodes t).length, c.2 + (boxes t).length)
  | mk i ss, c => by
    rw [writeCount, writeCountL_eq, nodes, boxes]
    simp only [List.length_cons, List.length_append, vals_length]
    ext <;> simp <;> omega
theorem writeCountL_eq : ∀ (l : List (Cluster K)) (c : Nat × Nat), writeCountL l c = (c.1 + (nodesL l).length, c.2 + (boxesL l).length)
  | [], c => by rw [writeCountL, nodesL, boxesL]; simp
  | s :: ss, c => by
    rw [writeCountL, writeCount_eq, writeCountL_eq, nodesL, boxesL]
    simp only [List.length_append]
    ext <;> simp <;> omega
end

/-- the state after writing -/
def WSt.ovr (s : WSt K) (a b : List Nat) (c : List K) : WSt K := ⟨s.sons.ovr s.ci a, s.size.ovr s.ci b, s.coeff.ovr s.co c, s.ci + a.length, s.co + c.length⟩

theorem WSt.ovr_ovr (s : WSt K) (a b a' b' : List Nat) (c c' : List K) (h : a.length = b.length) : (s.ovr a b c).ovr a' b' c' = s.ovr (a ++ a') (b ++ b') (c ++ c') := by
  unfold WSt.ovr
  simp only [List.length_append]
  rw [Arr.ovr_append, Arr.ovr_append, ← Arr.ovr_append (l := b), h]
  simp only [Nat.add_assoc]

theorem preS_length (t : Cluster K) : (preS t).length = (nodes t).length := by simp [preS]
theorem preZ_length (t : Cluster K) : (preZ t).length = (nodes t).length := by simp [preZ]
theorem preSL_length (t : List (Cluster K)) : (preSL t).length = (nodesL t).length := by simp [preSL]
theorem preZL_length (t : List (Cluster K)) : (preZL t).length = (nodesL t).length := by simp [preZL]

theorem preS_mk (i : CInfo K) (ss : List (Cluster K)) : preS (mk i ss) = ss.length :: preSL ss := by simp [preS, preSL, nodes, Cluster.sons]
theorem preZ_mk (i : CInfo K) (ss : List (Cluster K)) : preZ (mk i ss) = i.size :: preZL ss := by simp [preZ, preZL, nodes, Cluster.size, Cluster.info]
theorem preSL_cons (s : Cluster K) (ss : List (Cluster K)) : preSL (s :: ss) = preS s ++ preSL ss := by simp [preS, preSL, nodesL]
theorem preZL_cons (s : Cluster K) (ss : List (Cluster K)) : preZL (s :: ss) = preZ s ++ preZL ss := by simp [preZ, preZL, nodesL]

mutual
theorem writeCdf_ok {clusters coeffs : Nat} : ∀ (t : Cluster K) (s : WSt K), s.sons.n = clusters → s.size.n = clusters → s.coeff.n = coeffs →
    s.ci + (nodes t).length ≤ clusters → s.co + (boxes t).length ≤ coeffs → writeCdf clusters coeffs t s = .ok (s.ovr (preS t) (preZ t) (boxes t))
  | mk i ss, s, h1, h2, h3, h4, h5 => by
    rw [nodes, List.length_cons] at h4
    rw [boxes, List.length_append, List.length_append, vals_length, vals_length] at h5
    rw [writeCdf, cassert_true (decide_eq_true (by omega)), ok_bind, put_ok (by omega), ok_bind, put_ok (by omega), ok_bind]
    rw [writeCdfL_ok ss ⟨s.sons.ovr s.ci (vals 1 fun _ => ss.length), s.size.ovr s.ci (vals 1 fun _ => i.size), s.coeff, s.ci + 1, s.co⟩ h1 h2 h3 (by simp only; omega) (by simp only; omega), ok_bind]
    simp only [WSt.ovr, preSL_length, vals_one]
    rw [cassert_true (decide_eq_true (by omega)), ok_bind, put_ok (by rw [Arr.ovr_n]; omega), ok_bind, put_ok (by rw [Arr.ovr_n, Arr.ovr_n]; omega), ok_bind]
    have e1 : (((s.coeff.ovr s.co (boxesL ss)).ovr (s.co + (boxesL ss).length) (vals i.dim i.bmin)).ovr (s.co + (boxesL ss).length + i.dim) (vals i.dim i.bmax)) =
        s.coeff.ovr s.co (boxes (mk i ss)) := by
      rw [Arr.ovr_append]
      have := Arr.ovr_append s.coeff s.co (boxesL ss ++ vals i.dim i.bmin) (vals i.dim i.bmax)
      rw [List.length_append, vals_length, ← Nat.add_assoc] at this
      rw [this, boxes, List.append_assoc]
    rw [e1, preS_mk, preZ_mk]
    have e2 : ∀ (a : Arr Nat) (x : Nat) (l : List Nat), (a.ovr s.ci [x]).ovr (s.ci + 1) l = a.ovr s.ci (x :: l) := fun a x l => by
      have := Arr.ovr_append a s.ci [x] l
      simpa using this
    rw [e2, e2]
    have e3 : s.co + (boxesL ss).length + i.dim + i.dim = s.co + (boxes (mk i ss)).length := by
      rw [boxes, List.length_append, List.length_append, vals_length, vals_length]; omega
    rw [e3]
    simp only [List.length_cons, preSL_length]
    rw [show s.ci + 1 + (nodesL ss).length = s.ci + ((nodesL ss).length + 1) by omega]
    rfl
theorem writeCdfL_ok {clusters coeffs : Nat} : ∀ (l : List (Cluster K)) (s : WSt K), s.sons.n = clusters → s.size.n = clusters → s.coeff.n = coeffs →
    s.ci + (nodesL l).length ≤ clusters → s.co + (boxesL l).length ≤ coeffs → writeCdfL clusters coeffs l s = .ok (s.ovr (preSL l) (preZL l) (boxesL l))
  | [], s, _, _, _, _, _ => by
    rw [writeCdfL]
    have : s.ovr (preSL ([] : List (Cluster K))) (preZL ([] : List (Cluster K))) (boxesL []) = s := by
      unfold WSt.ovr; rw [boxesL]; simp only [preSL, preZL, nodesL, List.map_nil, Arr.ovr_nil, List.length_nil, Nat.add_zero]
    exact congrArg Except.ok this.symm
  | t :: ts, s, h1, h2, h3, h4, h5 => by
    rw [nodesL, List.length_append] at h4
    rw [boxesL, List.length_append] at h5
    rw [writeCdfL, writeCdf_ok t s h1 h2 h3 (by omega) (by omega), ok_bind]
    rw [writeCdfL_ok ts (s.ovr (preS t) (preZ t) (boxes t)) h1 h2 h3 (by simp only [WSt.ovr, preS_length]; omega) (by simp only [WSt.ovr]; omega)]
    rw [WSt.ovr_ovr _ _ _ _ _ _ _ (by rw [preS_length, preZ_length]), ← preSL_cons, ← preZL_cons, boxesL]
end

theorem copyOf_root {o : Nat} {t t' : Cluster K} (h : CopyOf o t t') : t'.off + o = t.off ∧ t'.size = t.size ∧ t'.desc = (nodes t).length := by
  have := h []
  cases t; cases t'
  simp only [atPath] at this
  exact ⟨this.1, this.2.1, this.2.2.2.1⟩

theorem copyOf_mk {o : Nat} {i i' : CInfo K} {ss ss' : List (Cluster K)}
    (h0 : i'.off + o = i.off ∧ i'.size = i.size ∧ i'.dim = i.dim ∧ i'.desc = (nodes (mk i ss)).length ∧ ∀ j < i.dim, i'.bmin j = i.bmin j ∧ i'.bmax j = i.bmax j)
    (hs : List.Forall₂ (CopyOf o) ss ss') : CopyOf o (mk i ss) (mk i' ss') := by
  intro p
  cases p with
  | nil => simp only [atPath]; exact h0
  | cons k p =>
    simp only [atPath]
    have hl := hs.length_eq
    by_cases hk : k < ss.length
    · rw [List.getElem?_eq_getElem hk, List.getElem?_eq_getElem (by omega)]
      exact (List.forall₂_iff_get.mp hs).2 k hk (by omega) p
    · rw [List.getElem?_eq_none (by omega), List.getElem?_eq_none (by omega)]
      trivial

theorem nodes_self (t : Cluster K) : t ∈ nodes t := by cases t; simp [nodes]

theorem mem_nodesL {l : List (Cluster K)} {s : Cluster K} : s ∈ nodesL l ↔ ∃ t ∈ l, s ∈ nodes t := by
  induction l with
  | nil => simp [nodesL]
  | cons a l ih => rw [nodesL, List.mem_append, ih]; simp

theorem storable_son {d : Nat} {i : CInfo K} {ss : List (Cluster K)} (h : Storable d (mk i ss)) {s : Cluster K} (hs : s ∈ ss) : Storable d s := by
  intro x hx
  refine h x ?_
  rw [nodes, List.mem_cons]
  right; exact mem_nodesL.mpr ⟨s, hs, hx⟩

theorem nodes_length_le {l : List (Cluster K)} {s : Cluster K} (h : s ∈ l) : (nodes s).length ≤ (nodesL l).length := by
  induction l with
  | nil => simp at h
  | cons a l ih =>
    rw [nodesL, List.length_append]
    rcases List.mem_cons.mp h with rfl | h
    · omega
    · have := ih h; omega

theorem descSum_eq {o : Nat} : ∀ {ss ss' : List (Cluster K)}, List.Forall₂ (CopyOf o) ss ss' → ∀ d, ss'.foldl (fun d c => d + c.desc) d = d + (nodesL ss).length
  | _, _, .nil, d => by simp [nodesL]
  | _, _, .cons h hs, d => by
    rw [List.foldl_cons, descSum_eq hs, (copyOf_root h).2.2, nodesL, List.length_append]; omega

mutual
theorem readPart_ok (old : Nat → K) {sons size : Arr Nat} {coeff : Arr K} {d o : Nat} : ∀ (t : Cluster K) (n off : Nat) (s : RSt),
    (nodes t).length ≤ n → Storable d t → off + o = t.off → sons.Has s.ci (preS t) → size.Has s.ci (preZ t) → coeff.Has s.co (boxes t) →
    ∃ t', readPart old sons size coeff d n off s = .ok (t', ⟨s.ci + (nodes t).length, s.co + (boxes t).length⟩) ∧ CopyOf o t t'
  | mk i ss, 0, off, s, hn, _, _, _, _, _ => by rw [nodes, List.length_cons] at hn; omega
  | mk i ss, n + 1, off, s, hn, hst, ho, h1, h2, h3 => by
    rw [nodes, List.length_cons] at hn
    rw [preS_mk, Arr.has_cons] at h1
    rw [preZ_mk, Arr.has_cons] at h2
    rw [boxes, Arr.has_append, Arr.has_append, vals_length] at h3
    obtain ⟨⟨a1, a2⟩, a3⟩ := h1
    obtain ⟨⟨b1, b2⟩, b3⟩ := h2
    obtain ⟨c1, c2, c3⟩ := h3
    obtain ⟨hd, hf⟩ := hst (mk i ss) (nodes_self _)
    replace hd : i.dim = d := hd
    subst hd
    obtain ⟨ss', e, hss'⟩ : ∃ ss', (if ss.length > 0 then (readSons (readPart old sons size coeff i.dim n) ss.length off ⟨s.ci + 1, s.co⟩ >>= fun x => do
        cassert (decide (x.2.1 = off + i.size))
        pure (x.1, x.2.2)) else pure ([], ⟨s.ci + 1, s.co⟩) : R (List (Cluster K) × RSt)) = .ok (ss', ⟨s.ci + 1 + (nodesL ss).length, s.co + (boxesL ss).length⟩) ∧
        List.Forall₂ (CopyOf o) ss ss' := by
      by_cases hs : ss = []
      · subst hs
        refine ⟨[], ?_, .nil⟩
        simp only [List.length_nil, nodesL, boxesL]; rfl
      · have hpos : ss.length > 0 := List.length_pos_iff.mpr hs
        rw [if_pos hpos]
        have hf' := hf hs
        obtain ⟨ss', e, hss', hend⟩ := readSons_ok old ss n off (i.off + i.size) ⟨s.ci + 1, s.co⟩ (by omega) (fun s hs => storable_son hst hs)
          (by rw [ho]; exact hf') a3 b3 c1
        refine ⟨ss', ?_, hss'⟩
        rw [e, ok_bind]
        simp only
        have : off + (ss.map Cluster.size).sum = off + i.size := by
          have ho' : off + o = i.off := ho
          omega
        rw [cassert_true (decide_eq_true this), ok_bind]
        rfl
    refine ⟨mk ⟨off, i.size, i.dim, getQ coeff (s.co + (boxesL ss).length) i.dim old, getQ coeff (s.co + (boxesL ss).length + i.dim) i.dim old,
      ss'.foldl (fun d c => d + c.desc) 1, 0⟩ ss', ?_, ?_⟩
    · rw [readPart]
      have g1 : Nc.get sons s.ci 1 = .ok (fun j => sons.v (s.ci + j)) := by unfold Nc.get; rw [if_pos (by omega)]
      have g2 : Nc.get size s.ci 1 = .ok (fun j => size.v (s.ci + j)) := by unfold Nc.get; rw [if_pos (by omega)]
      rw [g1, ok_bind]
      simp only [Nat.add_zero, a2]
      rw [g2, ok_bind]
      simp only [Nat.add_zero, b2]
      rw [e, ok_bind]
      simp only [nodes, List.length_cons, boxes, List.length_append, vals_length]
      rw [show s.ci + 1 + (nodesL ss).length = s.ci + ((nodesL ss).length + 1) by omega,
        show s.co + (boxesL ss).length + i.dim + i.dim = s.co + ((boxesL ss).length + (i.dim + i.dim)) by omega]
      rfl
    · refine copyOf_mk ⟨ho, rfl, rfl, ?_, fun j hj => ⟨?_, ?_⟩⟩ hss'
      · simp only
        rw [descSum_eq hss', nodes, List.length_cons]; omega
      · exact getQ_has c2 hj
      · exact getQ_has c3 hj
theorem readSons_ok (old : Nat → K) {sons size : Arr Nat} {coeff : Arr K} {d o : Nat} : ∀ (l : List (Cluster K)) (n off b : Nat) (s : RSt),
    (nodesL l).length ≤ n → (∀ t ∈ l, Storable d t) → Follow (off + o) l b → sons.Has s.ci (preSL l) → size.Has s.ci (preZL l) → coeff.Has s.co (boxesL l) →
    ∃ l', readSons (readPart old sons size coeff d n) l.length off s = .ok (l', off + (l.map Cluster.size).sum, ⟨s.ci + (nodesL l).length, s.co + (boxesL l).length⟩) ∧
      List.Forall₂ (CopyOf o) l l' ∧ off + (l.map Cluster.size).sum + o = b
  | [], n, off, b, s, _, _, hf, _, _, _ => ⟨[], by simp [readSons, nodesL, boxesL], .nil, by simpa [Follow] using hf⟩
  | t :: ts, n, off, b, s, hn, hst, hf, h1, h2, h3 => by
    rw [nodesL, List.length_append] at hn
    rw [preSL_cons, Arr.has_append, preS_length] at h1
    rw [preZL_cons, Arr.has_append, preZ_length] at h2
    rw [boxesL, Arr.has_append] at h3
    obtain ⟨f1, f2⟩ := hf
    obtain ⟨t', e, ht'⟩ := readPart_ok old (d := d) (o := o) t n off s (by omega) (hst t (by simp)) f1.symm h1.1 h2.1 h3.1
    have hz := (copyOf_root ht').2.1
    obtain ⟨ts', e', hts', hb⟩ := readSons_ok old (d := d) (o := o) ts n (off + t.size) b ⟨s.ci + (nodes t).length, s.co + (boxes t).length⟩ (by omega)
      (fun s hs => hst s (by simp [hs])) (by rw [show off + t.size + o = off + o + t.size by omega]; exact f2) h1.2 h2.2 h3.2
    refine ⟨t' :: ts', ?_, .cons ht' hts', ?_⟩
    · rw [List.length_cons, readSons, e, ok_bind]
      simp only [hz]
      rw [e', ok_bind]
      simp only [List.map_cons, List.sum_cons, nodesL, boxesL, List.length_append, Nat.add_assoc]
      rfl
    · simp only [List.map_cons, List.sum_cons]; omega
end

end Cluster
end H2
