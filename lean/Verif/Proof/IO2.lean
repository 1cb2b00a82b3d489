import Verif.Proof.IO

/-! Files of cluster trees: names, termination -/

set_option linter.unusedSectionVars false

namespace H2
namespace Nc
open Spec

theorem prefixName_inj (p : String) : Function.Injective (prefixName p) := by
  intro a b h
  have h' := congrArg String.toList h
  simp only [prefixName, String.toList_append] at h'
  exact String.toList_inj.mp (List.append_cancel_left h')

theorem split_last {α : Type _} {c : α} : ∀ {l l' a b : List α}, c ∉ a → c ∉ b → l ++ c :: a = l' ++ c :: b → l = l' ∧ a = b
  | [], [], a, b, _, _, h => by simpa using h
  | [], x :: l', a, b, ha, hb, h => by
    simp only [List.nil_append, List.cons_append, List.cons.injEq] at h
    exact absurd (by rw [h.2]; simp) ha
  | x :: l, [], a, b, ha, hb, h => by
    simp only [List.nil_append, List.cons_append, List.cons.injEq] at h
    exact absurd (by rw [← h.2]; simp) hb
  | x :: l, y :: l', a, b, ha, hb, h => by
    simp only [List.cons_append, List.cons.injEq] at h
    obtain ⟨e, f⟩ := split_last ha hb h.2
    exact ⟨by rw [h.1, e], f⟩

theorem prefixName_ne {p q a b : String} (h : p ≠ q) (ha : '_' ∉ a.toList) (hb : '_' ∉ b.toList) : prefixName p a ≠ prefixName q b := by
  intro e
  have h' := congrArg String.toList e
  simp only [prefixName, String.toList_append] at h'
  have h'' : p.toList ++ '_' :: a.toList = q.toList ++ '_' :: b.toList := by simpa using h'
  exact h (String.toList_inj.mp (split_last ha hb h'').1)

end Nc

namespace Cluster
open Nc Spec
variable {K : Type}

/-- the names used for a tree -/
def isName (nm : String → String) (s : String) : Prop :=
  s = nm "clusters" ∨ s = nm "coeffs" ∨ s = nm "totalsize" ∨ s = nm "dim" ∨ s = nm "sons" ∨ s = nm "size" ∨ s = nm "idx" ∨ s = nm "coeff"

/-- content of a file with a tree -/
structure Contains (nm : String → String) (idx : Arr Nat) (t : Cluster K) (f : File K) : Prop where
  clusters : f.dim (nm "clusters") = some (nodes t).length
  coeffs : f.dim (nm "coeffs") = some (boxes t).length
  totalsize : f.dim (nm "totalsize") = some t.size
  dim : f.dim (nm "dim") = some t.info.dim
  sons : ∃ a, f.ivar (nm "sons") = some a ∧ a.n = (nodes t).length ∧ a.Has 0 (preS t)
  size : ∃ a, f.ivar (nm "size") = some a ∧ a.Has 0 (preZ t)
  coeff : ∃ a, f.rvar (nm "coeff") = some a ∧ a.Has 0 (boxes t)
  idx : ∃ a, f.ivar (nm "idx") = some a ∧ a.n = t.size ∧ ∀ i < t.size, a.v i = idx.v (t.off + i)

/-- the file after writing -/
def after (nm : String → String) (fi : Nat → Nat) (fr : Nat → K) (idx : Arr Nat) (t : Cluster K) (f : File K) : File K where
  dim := fun s => if s = nm "dim" then some t.info.dim else if s = nm "totalsize" then some t.size else if s = nm "coeffs" then some (boxes t).length
    else if s = nm "clusters" then some (nodes t).length else f.dim s
  ivar := fun s => if s = nm "size" then some ((⟨(nodes t).length, fi⟩ : Arr Nat).ovr 0 (preZ t)) else if s = nm "sons" then
    some ((⟨(nodes t).length, fi⟩ : Arr Nat).ovr 0 (preS t)) else if s = nm "idx" then some ⟨t.size, fun i => idx.v (t.off + i)⟩ else f.ivar s
  rvar := fun s => if s = nm "coeff" then some ((⟨(boxes t).length, fr⟩ : Arr K).ovr 0 (boxes t)) else f.rvar s
  unlimited := decide (t.size = 0) || f.unlimited

theorem nodes_pos (t : Cluster K) : 0 < (nodes t).length := by cases t; simp [nodes]

theorem boxes_pos {t : Cluster K} (h : 0 < t.info.dim) : 0 < (boxes t).length := by
  cases t; rw [boxes]; simp only [List.length_append, vals_length]; simp only [Cluster.info] at h; omega

theorem writePart_ok {nm : String → String} (hn : Function.Injective nm) (fi : Nat → Nat) (fr : Nat → K) {idx : Arr Nat} {t : Cluster K} {f : File K}
    (hu : Unused nm f) (hd : 0 < t.info.dim) (hz : t.size = 0 → f.unlimited = false) (hi : t.off + t.size ≤ idx.n) :
    writePart nm fi fr idx t f = .ok (after nm fi fr idx t f) := by
  have hN := nodes_pos t
  have hB := boxes_pos hd
  obtain ⟨hu1, hu2⟩ := hu
  simp only [List.mem_cons, List.not_mem_nil, or_false, forall_eq_or_imp, forall_eq] at hu1 hu2
  obtain ⟨d1, d2, d3, d4⟩ := hu1
  obtain ⟨⟨v1, w1⟩, ⟨v2, w2⟩, ⟨v3, w3⟩, v4, w4⟩ := hu2
  unfold writePart
  rw [writeCount_eq]
  simp only [Nat.zero_add]
  have hN0 : (nodes t).length ≠ 0 := by omega
  have hB0 : (boxes t).length ≠ 0 := by omega
  have hd0 : t.info.dim ≠ 0 := by omega
  have hzu : (!(decide (t.size = 0) && f.unlimited)) = true := by
    by_cases h0 : t.size = 0
    · rw [hz h0]; simp
    · simp [h0]
  have hw := writeCdf_ok (clusters := (nodes t).length) (coeffs := (boxes t).length) t ⟨⟨(nodes t).length, fi⟩, ⟨(nodes t).length, fi⟩, ⟨(boxes t).length, fr⟩, 0, 0⟩
    rfl rfl rfl (by simp) (by simp)
  simp only [defDim, defI, defR, d1, d2, d3, d4, v1, v2, v3, v4, w1, w2, w3, w4, cassert, hn.eq_iff, hN0, hB0, hd0, hzu, Option.isNone_none, Bool.and_self,
    decide_false, decide_true, Bool.false_and, Bool.not_false, Bool.false_or, if_true, if_false, ok_bind, if_pos hi, hw,
    pure, Except.pure, bind, Except.bind, String.reduceEq, WSt.ovr, Nat.zero_add, preS_length, storeI, storeR, after]
  congr 2
  · funext s
    by_cases h1 : s = nm "size" <;> by_cases h2 : s = nm "sons" <;> by_cases h3 : s = nm "idx" <;> simp [h1, h2, h3]
  · funext s
    by_cases h1 : s = nm "coeff" <;> simp [h1]

theorem after_contains {nm : String → String} (hn : Function.Injective nm) (fi : Nat → Nat) (fr : Nat → K) {idx : Arr Nat} {t : Cluster K} {f : File K} :
    Contains nm idx t (after nm fi fr idx t f) := by
  constructor
  · simp [after, hn.eq_iff]
  · simp [after, hn.eq_iff]
  · simp [after, hn.eq_iff]
  · simp [after]
  · exact ⟨(⟨(nodes t).length, fi⟩ : Arr Nat).ovr 0 (preS t), by simp [after, hn.eq_iff], rfl, Arr.ovr_has _ _ _ (by rw [preS_length]; simp)⟩
  · exact ⟨(⟨(nodes t).length, fi⟩ : Arr Nat).ovr 0 (preZ t), by simp [after], Arr.ovr_has _ _ _ (by rw [preZ_length]; simp)⟩
  · exact ⟨(⟨(boxes t).length, fr⟩ : Arr K).ovr 0 (boxes t), by simp [after], Arr.ovr_has _ _ _ (by simp)⟩
  · exact ⟨⟨t.size, fun i => idx.v (t.off + i)⟩, by simp [after, hn.eq_iff], rfl, fun _ _ => rfl⟩

theorem after_other {nm : String → String} (fi : Nat → Nat) (fr : Nat → K) {idx : Arr Nat} {t : Cluster K} {f : File K} {s : String} (h : ¬ isName nm s) :
    (after nm fi fr idx t f).dim s = f.dim s ∧ (after nm fi fr idx t f).ivar s = f.ivar s ∧ (after nm fi fr idx t f).rvar s = f.rvar s := by
  unfold isName at h
  push Not at h
  obtain ⟨h1, h2, h3, h4, h5, h6, h7, h8⟩ := h
  simp [after, h1, h2, h3, h4, h5, h6, h7, h8]

theorem readFilePart_ok {nm : String → String} (old : Nat → K) {idx : Arr Nat} {t : Cluster K} {f : File K} (hf : Contains nm idx t f)
    (hs : Storable t.info.dim t) :
    ∃ t' idx', readFilePart nm old f = .ok (t', idx') ∧ CopyOf t.off t t' ∧ idx'.n = t.size ∧ ∀ i < t.size, idx'.v i = idx.v (t.off + i) := by
  obtain ⟨a, ha, han, hah⟩ := hf.sons
  obtain ⟨b, hb, hbh⟩ := hf.size
  obtain ⟨c, hc, hch⟩ := hf.coeff
  obtain ⟨x, hx, hxn, hxv⟩ := hf.idx
  obtain ⟨t', e, ht'⟩ := readPart_ok old (d := t.info.dim) (o := t.off) t (a.n + 1) 0 ⟨0, 0⟩ (by omega) hs (by simp) hah hbh hch
  refine ⟨t', ⟨t.size, x.v⟩, ?_, ht', rfl, hxv⟩
  unfold readFilePart
  simp only [inqDim, inqI, inqR, hf.clusters, hf.coeffs, hf.totalsize, hf.dim, ha, hb, hc, hx, ok_bind, e, Nat.zero_add, hxn, le_refl, if_true, cassert, decide_true]
  rfl

theorem readFilePart_congr {nm : String → String} (old : Nat → K) {f f' : File K}
    (h : ∀ s, isName nm s → f'.dim s = f.dim s ∧ f'.ivar s = f.ivar s ∧ f'.rvar s = f.rvar s) : readFilePart nm old f' = readFilePart nm old f := by
  unfold readFilePart inqDim inqI inqR
  unfold isName at h
  rw [(h (nm "clusters") (by simp)).1, (h (nm "coeffs") (by simp)).1, (h (nm "totalsize") (by simp)).1, (h (nm "dim") (by simp)).1,
    (h (nm "sons") (by simp)).2.1, (h (nm "size") (by simp)).2.1, (h (nm "idx") (by simp)).2.1, (h (nm "coeff") (by simp)).2.2]

/-! termination -/

/-- the call does not run out of budget; if it returns, `P` -/
def NoFuel {α : Type _} (x : R α) (P : α → Prop) : Prop := x ≠ .error .fuel ∧ ∀ a, x = .ok a → P a

theorem NoFuel.bind {α β : Type _} {x : R α} {k : α → R β} {P : α → Prop} {Q : β → Prop} (h : NoFuel x P) (hk : ∀ a, P a → NoFuel (k a) Q) :
    NoFuel (x >>= k) Q := by
  cases x with
  | error e => exact ⟨fun H => h.1 (congrArg Except.error (Except.error.inj H)), fun a ha => by cases ha⟩
  | ok a => exact hk a (h.2 a rfl)

theorem NoFuel.pure {α : Type _} {a : α} {P : α → Prop} (h : P a) : NoFuel (Pure.pure a : R α) P :=
  ⟨(fun H => by cases H), fun b hb => by cases hb; exact h⟩

theorem NoFuel.cassert {p : Bool} : NoFuel (H2.cassert p) (fun _ => True) := by
  unfold H2.cassert; cases p <;> exact ⟨(fun H => by cases H), fun _ _ => trivial⟩

theorem NoFuel.get {α : Type} {a : Arr α} {p n : Nat} : NoFuel (Nc.get a p n) (fun _ => p + n ≤ a.n) := by
  unfold Nc.get
  split
  · next h => exact ⟨(fun H => by cases H), fun _ _ => h⟩
  · exact ⟨(fun H => by cases H), fun _ h => by cases h⟩

theorem readSons_noFuel {rd : Nat → RSt → R (Cluster K × RSt)} {N : Nat} {c : Nat}
    (hrd : ∀ idx s, c ≤ s.ci → s.ci ≤ N → NoFuel (rd idx s) (fun r => c ≤ r.2.ci ∧ r.2.ci ≤ N)) : ∀ (n idx : Nat) (s : RSt), c ≤ s.ci → s.ci ≤ N →
    NoFuel (readSons rd n idx s) (fun r => c ≤ r.2.2.ci ∧ r.2.2.ci ≤ N)
  | 0, idx, s, h1, h2 => NoFuel.pure ⟨h1, h2⟩
  | n + 1, idx, s, h1, h2 => by
    rw [readSons]
    refine NoFuel.bind (hrd idx s h1 h2) ?_
    rintro ⟨t1, s'⟩ ⟨h3, h4⟩
    refine NoFuel.bind (readSons_noFuel hrd n _ s' h3 h4) ?_
    rintro ⟨ts, i, s''⟩ h5
    exact NoFuel.pure h5

theorem readPart_noFuel (old : Nat → K) (sons size : Arr Nat) (coeff : Arr K) (dim : Nat) : ∀ (n idx : Nat) (s : RSt), s.ci ≤ sons.n → sons.n + 1 - s.ci ≤ n →
    NoFuel (readPart old sons size coeff dim n idx s) (fun r => s.ci ≤ r.2.ci ∧ r.2.ci ≤ sons.n)
  | 0, idx, s, h1, h2 => by omega
  | n + 1, idx, s, h1, h2 => by
    rw [readPart]
    refine NoFuel.bind NoFuel.get fun v hv => ?_
    refine NoFuel.bind NoFuel.get fun v' _ => ?_
    refine NoFuel.bind (P := fun (r : List (Cluster K) × RSt) => s.ci ≤ r.2.ci ∧ r.2.ci ≤ sons.n) ?_ ?_
    · simp only
      split
      · refine NoFuel.bind (readSons_noFuel (N := sons.n) (c := s.ci + 1) (fun idx' s' h3 h4 => ?_) _ _ _ (le_refl _) (by simpa using hv)) ?_
        · have := readPart_noFuel old sons size coeff dim n idx' s' h4 (by omega)
          exact ⟨this.1, fun r hr => by have := this.2 r hr; omega⟩
        · rintro ⟨ss, i, s'⟩ ⟨h3, h4⟩
          refine NoFuel.bind NoFuel.cassert fun _ _ => NoFuel.pure ?_
          simp only at h3 h4 ⊢; omega
      · exact NoFuel.pure (by simp only; omega)
    · rintro ⟨ss, s'⟩ h
      exact NoFuel.pure h

theorem inqDim_noFuel (f : File K) (s : String) : NoFuel (inqDim f s) (fun _ => True) := by
  unfold inqDim; cases f.dim s <;> exact ⟨(fun H => by cases H), fun _ _ => trivial⟩
theorem inqI_noFuel (f : File K) (s : String) : NoFuel (inqI f s) (fun _ => True) := by
  unfold inqI; cases f.ivar s <;> exact ⟨(fun H => by cases H), fun _ _ => trivial⟩
theorem inqR_noFuel (f : File K) (s : String) : NoFuel (inqR f s) (fun _ => True) := by
  unfold inqR; cases f.rvar s <;> exact ⟨(fun H => by cases H), fun _ _ => trivial⟩

theorem readFilePart_noFuel (nm : String → String) (old : Nat → K) (f : File K) : readFilePart nm old f ≠ .error .fuel := by
  refine (?_ : NoFuel _ (fun _ => True)).1
  unfold readFilePart
  refine NoFuel.bind (inqDim_noFuel _ _) fun _ _ => NoFuel.bind (inqDim_noFuel _ _) fun _ _ => NoFuel.bind (inqDim_noFuel _ _) fun _ _ =>
    NoFuel.bind (inqDim_noFuel _ _) fun _ _ => NoFuel.bind (inqI_noFuel _ _) fun a _ => NoFuel.bind (inqI_noFuel _ _) fun _ _ =>
    NoFuel.bind (inqI_noFuel _ _) fun _ _ => NoFuel.bind (inqR_noFuel _ _) fun _ _ => ?_
  split
  · refine NoFuel.bind (readPart_noFuel _ _ _ _ _ _ _ _ (by simp) (by simp)) ?_
    rintro ⟨t, s⟩ _
    refine NoFuel.bind NoFuel.cassert fun _ _ => NoFuel.bind NoFuel.cassert fun _ _ => NoFuel.pure trivial
  · exact ⟨(fun H => by cases H), fun _ h => by cases h⟩

end Cluster
end H2
