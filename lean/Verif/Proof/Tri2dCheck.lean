import Verif.Proof.Tri2d3
import Mathlib.Data.Finset.Union
import Mathlib.Tactic.IntervalCases

/-! `check_tri2d` finds no error iff the mesh passes the specified tests. -/

set_option linter.unusedSectionVars false

namespace H2

/-- partial correctness: if the call returns normally, its result satisfies `P` -/
def Part {α : Type _} (x : R α) (P : α → Prop) : Prop := ∀ a, x = .ok a → P a

theorem Part.bind {α β : Type _} {x : R α} {k : α → R β} {P : α → Prop} {Q : β → Prop} (h : Part x P) (hk : ∀ a, P a → Part (k a) Q) :
    Part (x >>= k) Q := by
  intro b hb
  obtain ⟨a, h1, h2⟩ := bind_ok.mp hb
  exact hk a (h a h1) b h2

theorem Part.any {α β : Type _} {x : R α} {k : α → R β} {Q : β → Prop} (hk : ∀ a, Part (k a) Q) : Part (x >>= k) Q :=
  Part.bind (P := fun _ => True) (fun _ _ => trivial) (fun a _ => hk a)

theorem Part.pure {α : Type _} {a : α} {P : α → Prop} (h : P a) : Part (Pure.pure a : R α) P := by
  intro b hb; rw [pure_ok] at hb; subst hb; exact h

theorem Part.ofTot {α : Type _} {x : R α} {P : α → Prop} (h : Tot x P) : Part x P := by
  obtain ⟨a, e, p⟩ := h
  intro b hb; rw [e] at hb; cases hb; exact p

theorem loopN_part {σ : Type _} {body : Nat → σ → R σ} (I : σ → Prop) (hb : ∀ k t, I t → Part (body k t) I) :
    ∀ (n i : Nat) (s : σ), I s → Part (loopN body n i s) I
  | 0, i, s, h => by intro a ha; simp only [loopN] at ha; cases ha; exact h
  | n + 1, i, s, h => by
    simp only [loopN]
    exact Part.bind (hb i s h) (fun t ht => loopN_part I hb n (i + 1) t ht)

theorem forUp_part {σ : Type _} {lo hi : Nat} {body : Nat → σ → R σ} {s : σ} (I : σ → Prop) (h0 : I s)
    (hb : ∀ k t, I t → Part (body k t) I) : Part (forUp lo hi body s) I := loopN_part I hb _ _ _ h0

namespace Tri2d
open H2.Spec
variable {K : Type} [Field K] {m : Mesh K}

theorem err_iff {p : Prop} [Decidable p] {n : Nat} : (if p then n + 1 else n) = 0 ↔ n = 0 ∧ ¬ p := by
  split_ifs with h
  · exact ⟨fun H => H.elim, fun H => absurd h H.2⟩
  · exact ⟨fun H => ⟨H, h⟩, fun H => H.1⟩

theorem checkEdges_tot (hs : Sized m) :
    Tot (checkEdges m) fun n => n = 0 ↔ ∀ i < m.edges, ∀ k < 2, endp m i k < m.vertices := by
  unfold checkEdges
  refine forUp_tot (fun q n => n = 0 ↔ ∀ i < q, ∀ k < 2, endp m i k < m.vertices) (Nat.zero_le _)
    ⟨fun _ i hi => absurd hi (by omega), fun _ => rfl⟩ ?_
  intro q n _ hq h
  have e := hs.e
  refine Tot.get (by omega) ?_
  refine Tot.get (by omega) ?_
  refine Tot.pure ?_
  have step : (∀ i < q + 1, ∀ k < 2, endp m i k < m.vertices) ↔
      (∀ i < q, ∀ k < 2, endp m i k < m.vertices) ∧ endp m q 0 < m.vertices ∧ endp m q 1 < m.vertices := by
    constructor
    · intro H; exact ⟨fun i hi => H i (by omega), H q (by omega) 0 (by omega), H q (by omega) 1 (by omega)⟩
    · rintro ⟨H, H0, H1⟩ i hi k hk
      rcases (show i < q ∨ i = q by omega) with h | rfl
      · exact H i h k hk
      · rcases (show k = 0 ∨ k = 1 by omega) with rfl | rfl <;> assumption
  rw [step, ← h]
  show (if m.e.v (2 * q + 1) ≥ m.vertices then (if m.e.v (2 * q) ≥ m.vertices then n + 1 else n) + 1 else
    (if m.e.v (2 * q) ≥ m.vertices then n + 1 else n)) = 0 ↔ _
  have z0 : m.e.v (2 * q) = endp m q 0 := rfl
  have z1 : m.e.v (2 * q + 1) = endp m q 1 := rfl
  rw [z0, z1, err_iff, err_iff, and_assoc, not_le, not_le]

/-- condition of the second loop -/
def FlagsOk (m : Mesh K) (i : Nat) : Prop := m.eb.v i = 1 → m.xb.v (endp m i 0) ≠ 0 ∧ m.xb.v (endp m i 1) ≠ 0

theorem forall_lt_succ {P : Nat → Prop} {q : Nat} : (∀ i < q + 1, P i) ↔ (∀ i < q, P i) ∧ P q := by
  constructor
  · intro H; exact ⟨fun i hi => H i (by omega), H q (by omega)⟩
  · rintro ⟨H, H0⟩ i hi
    rcases (show i < q ∨ i = q by omega) with h | rfl
    · exact H i h
    · exact H0

theorem checkBoundary_tot (hs : Sized m) (he : ∀ i < m.edges, ∀ k < 2, endp m i k < m.vertices) (e0 : Nat) :
    Tot (checkBoundary m e0) fun n => n = 0 ↔ e0 = 0 ∧ ∀ i < m.edges, FlagsOk m i := by
  unfold checkBoundary
  refine forUp_tot (fun q n => n = 0 ↔ e0 = 0 ∧ ∀ i < q, FlagsOk m i) (Nat.zero_le _)
    ⟨fun h => ⟨h, fun i hi => absurd hi (by omega)⟩, fun h => h.1⟩ ?_
  intro q n _ hq h
  have e := hs.e; have eb := hs.eb; have xb := hs.xb
  have b0 := he q hq 0 (by omega)
  have b1 := he q hq 1 (by omega)
  have z0 : m.e.v (2 * q) = endp m q 0 := rfl
  have z1 : m.e.v (2 * q + 1) = endp m q 1 := rfl
  rw [forall_lt_succ, ← and_assoc, ← h]
  refine Tot.get (by omega) ?_
  split
  · next h1 =>
    refine Tot.get (by omega) ?_
    refine Tot.get (by omega) ?_
    refine Tot.get (by omega) ?_
    refine Tot.get (by omega) ?_
    refine Tot.pure ?_
    have : FlagsOk m q ↔ m.xb.v (endp m q 0) ≠ 0 ∧ m.xb.v (endp m q 1) ≠ 0 := ⟨fun H => H h1, fun H _ => H⟩
    rw [this, z0, z1]
    show (if m.xb.v (endp m q 1) = 0 then (if m.xb.v (endp m q 0) = 0 then n + 1 else n) + 1 else
      (if m.xb.v (endp m q 0) = 0 then n + 1 else n)) = 0 ↔ _
    rw [err_iff, err_iff, and_assoc]
  · next h1 =>
    refine Tot.pure ?_
    exact ⟨fun H => ⟨H, fun H' => absurd H' h1⟩, fun H => H.1⟩

theorem search_tot (v : Arr Nat) (y : Nat) : ∀ (n l : Nat), l + n ≤ v.n →
    Tot (search v y n l) fun r => l ≤ r ∧ r ≤ l + n ∧ (r = l + n ↔ ∀ i, l ≤ i → i < l + n → v.v i ≠ y)
  | 0, l, h => ⟨l, rfl, by omega, by omega, fun _ i h1 h2 => absurd h2 (by omega), fun _ => rfl⟩
  | n + 1, l, h => by
    unfold search
    refine Tot.get (by omega) ?_
    split
    · next h1 =>
      refine Tot.mono (search_tot v y n (l + 1) (by omega)) ?_
      rintro r ⟨a, b, c⟩
      refine ⟨by omega, by omega, ?_⟩
      rw [show l + (n + 1) = l + 1 + n by omega, c]
      constructor
      · intro H i h2 h3
        rcases (show i = l ∨ l + 1 ≤ i by omega) with rfl | h4
        · exact fun e => h1 e.symm
        · exact H i h4 h3
      · intro H i h2 h3; exact H i (by omega) h3
    · next h1 =>
      refine ⟨l, rfl, by omega, by omega, ?_⟩
      have e : y = v.v l := by by_contra e; exact h1 e
      constructor
      · intro H; omega
      · intro H; exact absurd e.symm (H l (by omega) (by omega))

/-- the vertices collected in `v[0..j-1]` are different and form the set `S` -/
def Coll (s : Arr Nat × Nat) (S : Finset Nat) : Prop := s.1.n = 6 ∧ (Finset.range s.2).image s.1.v = S ∧ S.card = s.2

theorem collect_tot {y : Nat} {s : Arr Nat × Nat} {S : Finset Nat} (h : Coll s S) (h6 : s.2 < 6) :
    Tot (collect y s) fun s' => Coll s' (insert y S) ∧ s'.2 ≤ s.2 + 1 := by
  obtain ⟨hn, hS, hc⟩ := h
  unfold collect
  refine Tot.bind (search_tot s.1 y s.2 0 (by omega)) ?_
  rintro l _ ⟨-, -, hl⟩
  rw [Nat.zero_add] at hl
  have hmem : y ∈ S ↔ ¬ l = s.2 := by
    rw [hl, ← hS, Finset.mem_image]
    constructor
    · rintro ⟨i, hi, e⟩ H; rw [Finset.mem_range] at hi; exact H i (by omega) hi e
    · intro H
      by_contra hno
      apply H
      intro i _ hi e
      exact hno ⟨i, Finset.mem_range.mpr hi, e⟩
  split
  · next h1 =>
    refine Tot.set (by omega) ?_
    refine Tot.pure ⟨⟨hn, ?_, ?_⟩, le_refl _⟩
    · show (Finset.range (s.2 + 1)).image _ = _
      rw [Finset.range_add_one, Finset.image_insert]
      congr 1
      · simp [Arr.upd_v]
      · rw [← hS]
        refine Finset.image_congr fun i hi => ?_
        have : i < s.2 := Finset.mem_range.mp hi
        simp only [Arr.upd_v]; rw [if_neg (by omega)]
    · rw [Finset.card_insert_of_notMem (fun hy => (hmem.mp hy) h1), hc]
  · next h1 =>
    refine Tot.pure ⟨?_, by omega⟩
    rw [Finset.insert_eq_of_mem (hmem.mpr h1)]
    exact ⟨hn, hS, hc⟩

/-- end points of the first `k` edges of triangle `i` -/
def verts (m : Mesh K) (i k : Nat) : Finset Nat := (Finset.range k).biUnion fun q => {endp m (side m i q) 0, endp m (side m i q) 1}

theorem verts_succ (m : Mesh K) (i k : Nat) : verts m i (k + 1) = insert (endp m (side m i k) 1) (insert (endp m (side m i k) 0) (verts m i k)) := by
  unfold verts
  rw [Finset.range_add_one, Finset.biUnion_insert]
  ext x; simp only [Finset.mem_union, Finset.mem_insert, Finset.mem_singleton]; tauto

theorem checkTriEdges_tot (hs : Sized m) {i : Nat} (hi : i < m.triangles) {e0 : Nat} {v : Arr Nat} (hv : v.n = 6) :
    Tot (checkTriEdges m i (e0, v, 0)) fun s => (s.1 = 0 ↔ e0 = 0 ∧ ∀ k < 3, side m i k < m.edges) ∧ s.2.1.n = 6 ∧
      ((∀ k < 3, side m i k < m.edges) → s.2.2 = (verts m i 3).card) := by
  unfold checkTriEdges
  refine Tot.mono (forUp_tot (fun k (s : Nat × Arr Nat × Nat) => (s.1 = 0 ↔ e0 = 0 ∧ ∀ q < k, side m i q < m.edges) ∧ s.2.2 ≤ 2 * k ∧
    ∃ S, Coll s.2 S ∧ ((∀ q < k, side m i q < m.edges) → S = verts m i k)) (Nat.zero_le _)
    ⟨⟨fun h => ⟨h, fun q hq => absurd hq (by omega)⟩, fun h => h.1⟩, by simp, ∅, ⟨hv, rfl, rfl⟩, fun _ => rfl⟩ ?_) ?_
  · rintro k ⟨n, v, j⟩ _ hk ⟨h1, h2, S, h3, h4⟩
    have et := hs.t; have ee := hs.e
    simp only at h1 h2 h3
    refine Tot.get (by omega) ?_
    show Tot (if m.t.v (3 * i + k) ≥ m.edges then _ else _) _
    have zs : m.t.v (3 * i + k) = side m i k := rfl
    rw [zs]
    split
    · next hf =>
      refine Tot.pure ⟨?_, by simp only; omega, S, h3, fun H => absurd (H k (by omega)) (by omega)⟩
      show n + 1 = 0 ↔ _
      exact ⟨fun h => absurd h (by omega), fun H => absurd (H.2 k (by omega)) (by omega)⟩
    · next hf =>
      refine Tot.get (by omega) ?_
      refine Tot.bind (collect_tot (s := (v, j)) h3 (by simp only; omega)) ?_
      rintro p _ ⟨p1, p2⟩
      simp only at p2
      refine Tot.get (by omega) ?_
      refine Tot.bind (collect_tot p1 (by omega)) ?_
      rintro p' _ ⟨p3, p4⟩
      refine Tot.pure ⟨?_, by simp only; omega, _, p3, ?_⟩
      · rw [forall_lt_succ]; simp only; rw [h1]
        exact ⟨fun H => ⟨H.1, H.2, by omega⟩, fun H => ⟨H.1, H.2.1⟩⟩
      · intro H
        rw [verts_succ, h4 (fun q hq => H q (by omega))]; rfl
  · rintro ⟨n, v', j⟩ ⟨h1, h2, S, h3, h4⟩
    refine ⟨h1, h3.1, fun H => ?_⟩
    rw [← h4 H]; exact h3.2.2.symm

/-- condition of the third loop -/
def TriOk (m : Mesh K) (i : Nat) : Prop := (∀ k < 3, side m i k < m.edges) ∧ (verts m i 3).card = 3

theorem checkTriangles_tot (hs : Sized m) {v : Arr Nat} (hv : v.n = 6) (e0 : Nat) :
    Tot (checkTriangles m v e0) fun s => s.1 = 0 ↔ e0 = 0 ∧ ∀ i < m.triangles, TriOk m i := by
  unfold checkTriangles
  refine Tot.mono (forUp_tot (fun q (s : Nat × Arr Nat) => (s.1 = 0 ↔ e0 = 0 ∧ ∀ i < q, TriOk m i) ∧ s.2.n = 6) (Nat.zero_le _)
    ⟨⟨fun h => ⟨h, fun i hi => absurd hi (by omega)⟩, fun h => h.1⟩, hv⟩ ?_) (fun s h => h.1)
  rintro q ⟨n, v⟩ _ hq ⟨h1, h2⟩
  refine Tot.bind (checkTriEdges_tot hs hq h2) ?_
  rintro ⟨n', v', j⟩ _ ⟨a, b, c⟩
  simp only at h1 h2 a b c
  refine Tot.pure ⟨?_, b⟩
  rw [forall_lt_succ, ← and_assoc, ← h1]
  show (if j ≠ 3 then n' + 1 else n') = 0 ↔ n = 0 ∧ TriOk m q
  rw [err_iff, a, not_not, and_assoc]
  unfold TriOk
  constructor
  · rintro ⟨h1, h2, h3⟩; exact ⟨h1, h2, (c h2).symm.trans h3⟩
  · rintro ⟨h1, h2, h3⟩; exact ⟨h1, h2, (c h2).trans h3⟩

theorem bump_tot {en : Arr Nat} {f : Nat} (h : f < en.n) :
    Tot (bump en f) fun en' => en'.n = en.n ∧ ∀ g, en'.v g = en.v g + if f = g then 1 else 0 := by
  unfold bump
  refine Tot.get h ?_
  refine ⟨_, Arr.set_ok h, rfl, fun g => ?_⟩
  show (if g = f then _ else _) = _
  split_ifs <;> first | omega | (subst_vars; omega)

theorem countTriangles_tot (hs : Sized m) (hsd : ∀ i < m.triangles, ∀ k < 3, side m i k < m.edges) (jn : Nat → Nat) :
    Tot (countTriangles m jn) fun en => en.n = m.edges ∧ ∀ f < m.edges, en.v f = incidences m f := by
  unfold countTriangles
  refine Tot.bind (forUp_tot (fun q (en : Arr Nat) => en.n = m.edges ∧ ∀ f < q, en.v f = 0) (Nat.zero_le _) ⟨rfl, fun f hf => absurd hf (by omega)⟩ ?_) ?_
  · rintro q en _ hq ⟨h1, h2⟩
    refine ⟨_, Arr.set_ok (by omega), h1, fun f hf => ?_⟩
    show (if f = q then _ else _) = _
    split_ifs with h
    · rfl
    · exact h2 f (by omega)
  rintro en _ ⟨h1, h2⟩
  refine Tot.mono (forUp_tot (fun q (en : Arr Nat) => en.n = m.edges ∧ ∀ f < m.edges, en.v f = ∑ i ∈ Finset.range q, occ m f i) (Nat.zero_le _)
    ⟨h1, fun f hf => h2 f hf⟩ ?_) ?_
  · rintro q en _ hq ⟨h1, h2⟩
    have et := hs.t
    have s0 : m.t.v (3 * q) < m.edges := hsd q hq 0 (by omega)
    have s1 : m.t.v (3 * q + 1) < m.edges := hsd q hq 1 (by omega)
    have s2 : m.t.v (3 * q + 2) < m.edges := hsd q hq 2 (by omega)
    refine Tot.get (by omega) ?_
    refine Tot.bind (bump_tot (by omega)) ?_
    rintro en1 _ ⟨a1, a2⟩
    refine Tot.get (by omega) ?_
    refine Tot.bind (bump_tot (by omega)) ?_
    rintro en2 _ ⟨b1, b2⟩
    refine Tot.get (by omega) ?_
    refine Tot.mono (bump_tot (by omega)) ?_
    rintro en3 ⟨c1, c2⟩
    refine ⟨by omega, fun f hf => ?_⟩
    rw [c2, b2, a2, h2 f hf, Finset.sum_range_succ]
    simp only [occ]
    show _ = _ + ((if m.t.v (3 * q) = f then _ else _) + (if m.t.v (3 * q + 1) = f then _ else _) + if m.t.v (3 * q + 2) = f then _ else _)
    omega
  · rintro en ⟨h1, h2⟩
    exact ⟨h1, fun f hf => (h2 f hf).trans (incidences_eq m f).symm⟩

/-- condition of the last loop -/
def NeighOk (m : Mesh K) (i : Nat) : Prop := (m.eb.v i = 0 → incidences m i = 2) ∧ (m.eb.v i = 1 → incidences m i = 1)

theorem checkNeighbours_tot (hs : Sized m) {en : Arr Nat} (h1 : en.n = m.edges) (h2 : ∀ f < m.edges, en.v f = incidences m f) (e0 : Nat) :
    Tot (checkNeighbours m en e0) fun n => n = 0 ↔ e0 = 0 ∧ ∀ i < m.edges, NeighOk m i := by
  unfold checkNeighbours
  refine forUp_tot (fun q n => n = 0 ↔ e0 = 0 ∧ ∀ i < q, NeighOk m i) (Nat.zero_le _)
    ⟨fun h => ⟨h, fun i hi => absurd hi (by omega)⟩, fun h => h.1⟩ ?_
  intro q n _ hq h
  have eb := hs.eb
  rw [forall_lt_succ, ← and_assoc, ← h]
  refine Tot.get (by omega) ?_
  refine Tot.get (by omega) ?_
  refine Tot.pure ?_
  rw [h2 q hq]
  unfold NeighOk
  show (if m.eb.v q = 1 ∧ incidences m q ≠ 1 then (if m.eb.v q = 0 ∧ incidences m q ≠ 2 then n + 1 else n) + 1 else
    (if m.eb.v q = 0 ∧ incidences m q ≠ 2 then n + 1 else n)) = 0 ↔ _
  rw [err_iff, err_iff, and_assoc, not_and, not_and, not_not, not_not]

/-- the number of errors never decreases -/
theorem checkNeighbours_part (m : Mesh K) (en : Arr Nat) {e0 : Nat} (h : e0 ≠ 0) : Part (checkNeighbours m en e0) (fun n => n ≠ 0) := by
  unfold checkNeighbours
  refine forUp_part (fun n => n ≠ 0) h ?_
  intro k n hn
  refine Part.any fun b => Part.any fun c => Part.pure ?_
  show (if b = 1 ∧ c ≠ 1 then (if b = 0 ∧ c ≠ 2 then n + 1 else n) + 1 else (if b = 0 ∧ c ≠ 2 then n + 1 else n)) ≠ 0
  split_ifs <;> omega

theorem checkBoundary_part (m : Mesh K) {e0 : Nat} (h : e0 ≠ 0) : Part (checkBoundary m e0) (fun n => n ≠ 0) := by
  unfold checkBoundary
  refine forUp_part (fun n => n ≠ 0) h ?_
  intro k n hn
  refine Part.any fun b => ?_
  split
  · refine Part.any fun a => Part.any fun xa => Part.any fun c => Part.any fun xc => Part.pure ?_
    show (if xc = 0 then (if xa = 0 then n + 1 else n) + 1 else (if xa = 0 then n + 1 else n)) ≠ 0
    split_ifs <;> omega
  · exact Part.pure hn

theorem check_iff (hs : Sized m) (jn : Nat → Nat) : checkTri2d jn m = .ok 0 ↔ Checked m := by
  have tail : ∀ e1 : Nat, e1 ≠ 0 → Part (do
      let s ← checkTriangles m ⟨6, jn⟩ e1
      let en ← countTriangles m jn
      checkNeighbours m en s.1) (fun n => n ≠ 0) := by
    intro e1 h1
    refine Part.bind (Part.ofTot (checkTriangles_tot hs rfl e1)) fun s hs' => Part.any fun en => ?_
    exact checkNeighbours_part m en (fun h => h1 (hs'.mp h).1)
  obtain ⟨n1, hn1, hc1⟩ := checkEdges_tot hs
  have hE : checkTri2d jn m = (do
      let errors ← checkBoundary m n1
      let s ← checkTriangles m ⟨6, jn⟩ errors
      let en ← countTriangles m jn
      checkNeighbours m en s.1) := by unfold checkTri2d; rw [hn1]; rfl
  rw [hE]
  by_cases hends : ∀ i < m.edges, ∀ k < 2, endp m i k < m.vertices
  · obtain ⟨n2, hn2, hc2⟩ := checkBoundary_tot hs hends n1
    rw [hn2, ok_bind]
    obtain ⟨s, hs3, hc3⟩ := checkTriangles_tot hs (v := ⟨6, jn⟩) rfl n2
    rw [hs3, ok_bind]
    by_cases hsd : ∀ i < m.triangles, ∀ k < 3, side m i k < m.edges
    · obtain ⟨en, hen, hc4, hc5⟩ := countTriangles_tot hs hsd jn
      rw [hen, ok_bind]
      obtain ⟨n5, hn5, hc6⟩ := checkNeighbours_tot hs hc4 hc5 s.1
      rw [hn5]
      have : (Except.ok n5 : R Nat) = .ok 0 ↔ n5 = 0 := ⟨fun h => Except.ok.inj h, fun h => by rw [h]⟩
      rw [this, hc6, hc3, hc2, hc1]
      constructor
      · rintro ⟨⟨⟨a, b⟩, c⟩, d⟩
        exact ⟨⟨hs, hends, hsd⟩, ⟨fun i hi => (d i hi).1, fun i hi => (d i hi).2, b⟩, fun i hi => (c i hi).2⟩
      · intro H
        exact ⟨⟨⟨hends, H.flags⟩, fun i hi => ⟨hsd i hi, H.three i hi⟩⟩, fun i hi => ⟨H.inner i hi, H.outer i hi⟩⟩
    · refine ⟨fun H => ?_, fun H => absurd H.sides hsd⟩
      have hne : s.1 ≠ 0 := fun h => hsd fun i hi => ((hc3.mp h).2 i hi).1
      exact absurd rfl (Part.any (x := countTriangles m jn) (fun en => checkNeighbours_part m en hne) 0 H)
  · refine ⟨fun H => ?_, fun H => absurd H.ends hends⟩
    have hne : n1 ≠ 0 := fun h => hends (hc1.mp h)
    exact absurd rfl (Part.bind (checkBoundary_part m hne) (fun e1 h1 => tail e1 h1) 0 H)

theorem checked_of_consistent (h : ConsistentMesh m) : Checked m where
  toLegal := h.toLegal
  toBoundaryOk := h.toBoundaryOk
  three := by
    intro i hi
    obtain ⟨a, b, c, hC⟩ := h.tri i hi
    have : verts m i 3 = {a, b, c} := by
      rw [verts_succ, verts_succ, verts_succ]
      ext x
      simp only [verts, Finset.range_zero, Finset.biUnion_empty, Finset.mem_insert, Finset.notMem_empty, or_false, Finset.mem_singleton]
      rcases hC.s0 with ⟨p, q⟩ | ⟨p, q⟩ <;> rcases hC.s1 with ⟨p', q'⟩ | ⟨p', q'⟩ <;> rcases hC.s2 with ⟨p'', q''⟩ | ⟨p'', q''⟩ <;>
        rw [p, q, p', q', p'', q''] <;> tauto
    show (verts m i 3).card = 3
    rw [this]
    exact Finset.card_eq_three.mpr ⟨a, b, c, hC.ab, hC.ca.symm, hC.bc, rfl⟩

theorem tri_lemma {a0 a1 b0 b1 c0 c1 x y z : Nat} (hxy : x ≠ y) (hxz : x ≠ z) (hyz : y ≠ z) (p0 : a0 ≠ a1) (p1 : b0 ≠ b1) (p2 : c0 ≠ c1)
    (o1 : ¬ ((a0 = b0 ∧ a1 = b1) ∨ (a0 = b1 ∧ a1 = b0))) (o2 : ¬ ((b0 = c0 ∧ b1 = c1) ∨ (b0 = c1 ∧ b1 = c0)))
    (o3 : ¬ ((c0 = a0 ∧ c1 = a1) ∨ (c0 = a1 ∧ c1 = a0))) (m0 : a0 = x ∨ a0 = y ∨ a0 = z) (m1 : a1 = x ∨ a1 = y ∨ a1 = z)
    (m2 : b0 = x ∨ b0 = y ∨ b0 = z) (m3 : b1 = x ∨ b1 = y ∨ b1 = z) (m4 : c0 = x ∨ c0 = y ∨ c0 = z) (m5 : c1 = x ∨ c1 = y ∨ c1 = z) :
    ∃ a b c, a ≠ b ∧ b ≠ c ∧ c ≠ a ∧ ((a0 = b ∧ a1 = c) ∨ (a0 = c ∧ a1 = b)) ∧ ((b0 = c ∧ b1 = a) ∨ (b0 = a ∧ b1 = c)) ∧
      ((c0 = a ∧ c1 = b) ∨ (c0 = b ∧ c1 = a)) := by
  -- the corner opposite to the first edge
  obtain ⟨w, hw0, hw1, hw⟩ : ∃ w, w ≠ a0 ∧ w ≠ a1 ∧ ∀ u, (u = x ∨ u = y ∨ u = z) → u = a0 ∨ u = a1 ∨ u = w := by
    rcases m0 with rfl | rfl | rfl <;> rcases m1 with rfl | rfl | rfl <;>
      first
      | exact absurd rfl p0
      | exact ⟨x, by omega, by omega, fun u hu => by omega⟩
      | exact ⟨y, by omega, by omega, fun u hu => by omega⟩
      | exact ⟨z, by omega, by omega, fun u hu => by omega⟩
  have n2 := hw _ m2
  have n3 := hw _ m3
  have n4 := hw _ m4
  have n5 := hw _ m5
  clear m0 m1 m2 m3 m4 m5 hw hxy hxz hyz
  have B : (b0 = w ∧ b1 = a0) ∨ (b0 = w ∧ b1 = a1) ∨ (b1 = w ∧ b0 = a0) ∨ (b1 = w ∧ b0 = a1) := by
    clear o2 o3 n4 n5 p2; omega
  have C : (c0 = w ∧ c1 = a0) ∨ (c0 = w ∧ c1 = a1) ∨ (c1 = w ∧ c0 = a0) ∨ (c1 = w ∧ c0 = a1) := by
    clear o1 o2 n2 n3 p1 B; omega
  clear o1 o3 n2 n3 n4 n5 p1 p2
  rcases B with ⟨h1, h2⟩ | ⟨h1, h2⟩ | ⟨h1, h2⟩ | ⟨h1, h2⟩ <;> rcases C with ⟨h3, h4⟩ | ⟨h3, h4⟩ | ⟨h3, h4⟩ | ⟨h3, h4⟩ <;>
  first
  | (exfalso; clear hw0 hw1 p0; omega)
  | (clear o2; exact ⟨w, a1, a0, hw1, p0.symm, hw0.symm, .inr ⟨rfl, rfl⟩, by omega, by omega⟩)
  | (clear o2; exact ⟨w, a0, a1, hw0, p0, hw1.symm, .inl ⟨rfl, rfl⟩, by omega, by omega⟩)

theorem consistent_of_checked (h : Checked m) (hsm : Simple m) : ConsistentMesh m where
  toLegal := h.toLegal
  toBoundaryOk := h.toBoundaryOk
  tri := by
    intro i hi
    have h3 := h.three i hi
    obtain ⟨n1, n2, n3⟩ := hsm.sides i hi
    have l0 := h.sides i hi 0 (by omega)
    have l1 := h.sides i hi 1 (by omega)
    have l2 := h.sides i hi 2 (by omega)
    have p0 := hsm.proper _ l0
    have p1 := hsm.proper _ l1
    have p2 := hsm.proper _ l2
    have o1 : ¬ Joins m (side m i 0) (endp m (side m i 1) 0) (endp m (side m i 1) 1) := fun H => n1 (hsm.once _ l0 _ l1 H)
    have o2 : ¬ Joins m (side m i 1) (endp m (side m i 2) 0) (endp m (side m i 2) 1) := fun H => n2 (hsm.once _ l1 _ l2 H)
    have o3 : ¬ Joins m (side m i 2) (endp m (side m i 0) 0) (endp m (side m i 0) 1) := fun H => n3 (hsm.once _ l2 _ l0 H)
    have hv : verts m i 3 = {endp m (side m i 0) 0, endp m (side m i 0) 1, endp m (side m i 1) 0, endp m (side m i 1) 1,
      endp m (side m i 2) 0, endp m (side m i 2) 1} := by
      rw [verts_succ, verts_succ, verts_succ]
      ext x
      simp only [verts, Finset.range_zero, Finset.biUnion_empty, Finset.mem_insert, Finset.notMem_empty, or_false, Finset.mem_singleton]
      tauto
    replace h3 : (verts m i 3).card = 3 := h3
    rw [hv] at h3
    unfold Joins at o1 o2 o3
    obtain ⟨x, y, z, hxy, hxz, hyz, hS⟩ := Finset.card_eq_three.mp h3
    have M : ∀ w, w ∈ ({endp m (side m i 0) 0, endp m (side m i 0) 1, endp m (side m i 1) 0, endp m (side m i 1) 1,
      endp m (side m i 2) 0, endp m (side m i 2) 1} : Finset Nat) → w = x ∨ w = y ∨ w = z := by
      intro w hw; rw [hS] at hw; simpa using hw
    have m0 := M (endp m (side m i 0) 0) (by simp)
    have m1 := M (endp m (side m i 0) 1) (by simp)
    have m2 := M (endp m (side m i 1) 0) (by simp)
    have m3 := M (endp m (side m i 1) 1) (by simp)
    have m4 := M (endp m (side m i 2) 0) (by simp)
    have m5 := M (endp m (side m i 2) 1) (by simp)
    obtain ⟨a, b, c, q1, q2, q3, q4, q5, q6⟩ := tri_lemma hxy hxz hyz p0 p1 p2 o1 o2 o3 m0 m1 m2 m3 m4 m5
    exact ⟨a, b, c, q1, q2, q3, q4, q5, q6⟩

end Tri2d
end H2
