import Verif.Spec.TriP1
import Verif.Proof.Sparse
import Verif.Proof.Tri2d3

/-! Piecewise linear finite elements: numbering of the vertices, sparsity patterns, assembly loops. -/

set_option linter.unusedSectionVars false

namespace H2.P1
open Spec Tri2d

theorem newDisc_tot {m : Mesh ℝ} (hs : Sized m) (jb : Nat → Bool) (jn : Nat → Nat) : Tot (newDisc jb jn m) (Numbered m) := by
  unfold newDisc
  refine Tot.bind (P := fun (a : Arr Bool) => a.n = m.vertices ∧ ∀ v < m.vertices, a.v v = decide (m.xb.v v = 0))
    (forUp_tot (fun k (a : Arr Bool) => a.n = m.vertices ∧ ∀ v < k, a.v v = decide (m.xb.v v = 0)) (Nat.zero_le _) ⟨rfl, fun v h => absurd h (Nat.not_lt_zero _)⟩ ?_) ?_
  · rintro k a - hk ⟨h1, h2⟩
    rw [Arr.get_ok (by rw [hs.xb]; exact hk), ok_bind, Arr.set_ok (by omega)]
    refine ⟨_, rfl, h1, fun v hv => ?_⟩
    show (if v = k then _ else _) = _
    by_cases hvk : v = k
    · rw [if_pos hvk, hvk]
    · rw [if_neg hvk]; exact h2 v (by omega)
  rintro a - ⟨h1, h2⟩
  refine Tot.bind (P := fun (s : Arr Nat × Nat × Nat) => s.1.n = m.vertices ∧ Set.BijOn s.1.v {v | v < m.vertices ∧ m.xb.v v = 0} (Set.Iio s.2.1) ∧
      Set.BijOn s.1.v {v | v < m.vertices ∧ m.xb.v v ≠ 0} (Set.Iio s.2.2))
    (forUp_tot (fun k (s : Arr Nat × Nat × Nat) => s.1.n = m.vertices ∧ Set.BijOn s.1.v {v | v < k ∧ m.xb.v v = 0} (Set.Iio s.2.1) ∧
      Set.BijOn s.1.v {v | v < k ∧ m.xb.v v ≠ 0} (Set.Iio s.2.2)) (Nat.zero_le _) ⟨rfl, ?_, ?_⟩ ?_) ?_
  · have e1 : {v | v < 0 ∧ m.xb.v v = 0} = ∅ := by ext v; simp
    have e2 : Set.Iio (0 : Nat) = ∅ := by ext v; simp
    rw [e1]
    show Set.BijOn _ _ (Set.Iio 0)
    rw [e2]
    exact Set.bijOn_empty _
  · have e1 : {v | v < 0 ∧ m.xb.v v ≠ 0} = ∅ := by ext v; simp
    have e2 : Set.Iio (0 : Nat) = ∅ := by ext v; simp
    rw [e1]
    show Set.BijOn _ _ (Set.Iio 0)
    rw [e2]
    exact Set.bijOn_empty _
  · rintro k ⟨x, nd, nf⟩ - hk ⟨g1, g2, g3⟩
    replace g1 : x.n = m.vertices := g1
    -- one more vertex in one of the two sets
    have key : ∀ (P : Nat → Prop) (n : Nat), P k → Set.BijOn x.v {v | v < k ∧ P v} (Set.Iio n) →
        Set.BijOn (fun v => if v = k then n else x.v v) {v | v < k + 1 ∧ P v} (Set.Iio (n + 1)) := by
      intro P n hP hb
      refine ⟨?_, ?_, ?_⟩
      · rintro v ⟨hv, hp⟩
        show (if v = k then n else x.v v) < n + 1
        by_cases e : v = k
        · rw [if_pos e]; omega
        · rw [if_neg e]
          have : x.v v < n := hb.1 ⟨by omega, hp⟩
          omega
      · rintro v ⟨hv, hp⟩ w ⟨hw, hq⟩ e
        replace e : (if v = k then n else x.v v) = (if w = k then n else x.v w) := e
        by_cases e1 : v = k <;> by_cases e2 : w = k
        · rw [e1, e2]
        · rw [if_pos e1, if_neg e2] at e
          have : x.v w < n := hb.1 ⟨by omega, hq⟩
          omega
        · rw [if_neg e1, if_pos e2] at e
          have : x.v v < n := hb.1 ⟨by omega, hp⟩
          omega
        · rw [if_neg e1, if_neg e2] at e
          exact hb.2.1 ⟨by omega, hp⟩ ⟨by omega, hq⟩ e
      · intro y hy
        replace hy : y < n + 1 := hy
        by_cases e : y = n
        · exact ⟨k, ⟨by omega, hP⟩, by show (if k = k then n else _) = y; rw [if_pos rfl, e]⟩
        · obtain ⟨v, ⟨hv, hp⟩, e'⟩ := hb.2.2 (show y ∈ Set.Iio n from by show y < n; omega)
          exact ⟨v, ⟨by omega, hp⟩, by show (if v = k then n else _) = y; rw [if_neg (by omega), e']⟩
    have keep : ∀ (P : Nat → Prop) (n z : Nat), ¬ P k → Set.BijOn x.v {v | v < k ∧ P v} (Set.Iio n) →
        Set.BijOn (fun v => if v = k then z else x.v v) {v | v < k + 1 ∧ P v} (Set.Iio n) := by
      intro P n z hP hb
      have e : {v | v < k + 1 ∧ P v} = {v | v < k ∧ P v} := by
        ext v
        constructor
        · rintro ⟨h, p⟩
          refine ⟨?_, p⟩
          rcases Nat.lt_succ_iff_lt_or_eq.mp h with h | rfl
          · exact h
          · exact absurd p hP
        · rintro ⟨h, p⟩; exact ⟨by omega, p⟩
      rw [e]
      refine hb.congr ?_
      rintro v ⟨hv, -⟩
      show x.v v = if v = k then z else x.v v
      rw [if_neg (by omega)]
    rw [Arr.get_ok (by omega), ok_bind, h2 k hk]
    by_cases hd : m.xb.v k = 0
    · rw [if_pos (by simpa using hd)]
      show Tot (x.set k nd >>= _) _
      rw [Arr.set_ok (by omega), ok_bind]
      exact Tot.pure ⟨g1, key (fun v => m.xb.v v = 0) nd hd g2, keep (fun v => m.xb.v v ≠ 0) nf nd (by simpa using hd) g3⟩
    · rw [if_neg (by simpa using hd)]
      show Tot (x.set k nf >>= _) _
      rw [Arr.set_ok (by omega), ok_bind]
      exact Tot.pure ⟨g1, keep (fun v => m.xb.v v = 0) nd nf hd g2, key (fun v => m.xb.v v ≠ 0) nf hd g3⟩
  · rintro ⟨x, nd, nf⟩ - ⟨g1, g2, g3⟩
    exact Tot.pure ⟨rfl, h1, g1, fun v hv => by show a.v v = true ↔ _; rw [h2 v hv]; simp, g2, g3⟩

variable {m : Mesh ℝ} {dc : Disc}

/-- numbers of vertices in range -/
theorem idx_lt (hn : Numbered m dc) {v : Nat} (hv : v < m.vertices) : dc.idx.v v < if dc.isDof.v v then dc.ndof else dc.nfix := by
  by_cases h : dc.isDof.v v = true
  · rw [if_pos h]
    exact hn.dofs.1 ⟨hv, (hn.isDof v hv).mp h⟩
  · rw [if_neg h]
    exact hn.fixs.1 ⟨hv, fun e => h ((hn.isDof v hv).mpr e)⟩

theorem idx_inj (hn : Numbered m dc) {v w : Nat} (hv : v < m.vertices) (hw : w < m.vertices) (hd : dc.isDof.v v = dc.isDof.v w) (he : dc.idx.v v = dc.idx.v w) : v = w := by
  by_cases h : dc.isDof.v v = true
  · exact hn.dofs.2.1 ⟨hv, (hn.isDof v hv).mp h⟩ ⟨hw, (hn.isDof w hw).mp (hd ▸ h)⟩ he
  · exact hn.fixs.2.1 ⟨hv, fun e => h ((hn.isDof v hv).mpr e)⟩ ⟨hw, fun e => h (hd ▸ (hn.isDof w hw).mpr e)⟩ he

/-- number of columns -/
def ncols (dc : Disc) (fix : Bool) : Nat := if fix then dc.nfix else dc.ndof

theorem col_lt (hn : Numbered m dc) {fix : Bool} {v : Nat} (hv : v < m.vertices) (hd : dc.isDof.v v = !fix) : dc.idx.v v < ncols dc fix := by
  have h := idx_lt hn hv
  rw [hd] at h
  cases fix <;> exact h

/-- the positions of an element -/
def pos (dc : Disc) (fix : Bool) (xt : Nat → Nat) (i j r c : Nat) : Prop :=
  dc.isDof.v (xt i) = true ∧ dc.isDof.v (xt j) = !fix ∧ r = dc.idx.v (xt i) ∧ c = dc.idx.v (xt j)

theorem addPairs_tot (hn : Numbered m dc) {fix : Bool} {xt : Nat → Nat} (hx : ∀ i < 3, xt i < m.vertices) {S : Nat → Nat → Prop} {sp : Pattern} (h : Pattern.Holds dc.ndof (ncols dc fix) S sp) :
    Tot (addPairs dc fix xt sp) (Pattern.Holds dc.ndof (ncols dc fix) fun r c => S r c ∨ ∃ i < 3, ∃ j < 3, pos dc fix xt i j r c) := by
  have hcongr : ∀ {S S' : Nat → Nat → Prop} {sp : Pattern}, (∀ r c, S r c ↔ S' r c) → Pattern.Holds dc.ndof (ncols dc fix) S sp → Pattern.Holds dc.ndof (ncols dc fix) S' sp := by
    intro S S' sp e h
    have : S = S' := by funext r c; exact propext (e r c)
    rw [← this]; exact h
  unfold addPairs
  refine forUp_tot (fun k sp => Pattern.Holds dc.ndof (ncols dc fix) (fun r c => S r c ∨ ∃ i < k, ∃ j < 3, pos dc fix xt i j r c) sp) (Nat.zero_le _) (hcongr (fun r c => by simp) h) ?_
  intro k sp _ hk h
  have hxk := hx k hk
  rw [Arr.get_ok (by rw [hn.nd]; exact hxk), ok_bind]
  by_cases hb : dc.isDof.v (xt k) = true
  · rw [if_pos hb, Arr.get_ok (by rw [hn.ni]; exact hxk), ok_bind]
    have hi := idx_lt hn hxk
    rw [if_pos hb] at hi
    refine Tot.cassert (by simp [hi]) ?_
    refine (forUp_tot (fun l sp => Pattern.Holds dc.ndof (ncols dc fix) (fun r c => (S r c ∨ ∃ i < k, ∃ j < 3, pos dc fix xt i j r c) ∨ ∃ j < l, pos dc fix xt k j r c) sp) (Nat.zero_le _)
      (hcongr (fun r c => by simp) h) ?_).mono fun sp' h' => hcongr (fun r c => ?_) h'
    · intro l sp _ hl h
      have hxl := hx l hl
      rw [Arr.get_ok (by rw [hn.nd]; exact hxl), ok_bind]
      by_cases hc : dc.isDof.v (xt l) = !fix
      · rw [if_pos hc, Arr.get_ok (by rw [hn.ni]; exact hxl), ok_bind]
        have hj := col_lt hn hxl hc
        refine Tot.cassert (by cases fix; rfl; simpa [ncols] using hj) ?_
        refine (Pattern.addnz_tot h hi hj).mono fun sp' h' => hcongr (fun r c => ?_) h'
        constructor
        · rintro (⟨rfl, rfl⟩ | hh | ⟨j, hj, hh⟩)
          · exact .inr ⟨l, by omega, hb, hc, rfl, rfl⟩
          · exact .inl hh
          · exact .inr ⟨j, by omega, hh⟩
        · rintro (hh | ⟨j, hj, hh⟩)
          · exact .inr (.inl hh)
          · rcases Nat.lt_succ_iff_lt_or_eq.mp hj with hj | rfl
            · exact .inr (.inr ⟨j, hj, hh⟩)
            · exact .inl ⟨hh.2.2.1, hh.2.2.2⟩
      · rw [if_neg hc]
        refine Tot.pure (hcongr (fun r c => ?_) h)
        constructor
        · rintro (hh | ⟨j, hj, hh⟩)
          · exact .inl hh
          · exact .inr ⟨j, by omega, hh⟩
        · rintro (hh | ⟨j, hj, hh⟩)
          · exact .inl hh
          · rcases Nat.lt_succ_iff_lt_or_eq.mp hj with hj | rfl
            · exact .inr ⟨j, hj, hh⟩
            · exact absurd hh.2.1 hc
    · constructor
      · rintro ((hh | ⟨i, hi, hh⟩) | ⟨j, hj, hh⟩)
        · exact .inl hh
        · exact .inr ⟨i, by omega, hh⟩
        · exact .inr ⟨k, by omega, j, hj, hh⟩
      · rintro (hh | ⟨i, hi, j, hj, hh⟩)
        · exact .inl (.inl hh)
        · rcases Nat.lt_succ_iff_lt_or_eq.mp hi with hi | rfl
          · exact .inl (.inr ⟨i, hi, j, hj, hh⟩)
          · exact .inr ⟨j, hj, hh⟩
  · rw [if_neg hb]
    refine Tot.pure (hcongr (fun r c => ?_) h)
    constructor
    · rintro (hh | ⟨i, hi, hh⟩)
      · exact .inl hh
      · exact .inr ⟨i, by omega, hh⟩
    · rintro (hh | ⟨i, hi, j, hj, hh⟩)
      · exact .inl hh
      · rcases Nat.lt_succ_iff_lt_or_eq.mp hi with hi | rfl
        · exact .inr ⟨i, hi, j, hj, hh⟩
        · exact absurd hh.1 hb

theorem corners_lt (hl : Legal m) {d a b c : Nat} (hd : d < m.triangles) (hC : Corners m d a b c) : a < m.vertices ∧ b < m.vertices ∧ c < m.vertices := by
  have h0 := hl.sides d hd 0 (by omega)
  have h1 := hl.sides d hd 1 (by omega)
  have e0 := hl.ends _ h0
  have e1 := hl.ends _ h1
  refine ⟨?_, ?_, ?_⟩
  · rcases hC.s1 with ⟨-, h⟩ | ⟨h, -⟩ <;> rw [← h]
    · exact e1 1 (by omega)
    · exact e1 0 (by omega)
  · rcases hC.s0 with ⟨h, -⟩ | ⟨-, h⟩ <;> rw [← h]
    · exact e0 0 (by omega)
    · exact e0 1 (by omega)
  · rcases hC.s1 with ⟨h, -⟩ | ⟨-, h⟩ <;> rw [← h]
    · exact e1 0 (by omega)
    · exact e1 1 (by omega)

theorem corner_iff {d a b c : Nat} (hC : Corners m d a b c) (v : Nat) : IsCorner m d v ↔ v = a ∨ v = b ∨ v = c := by
  constructor
  · rintro ⟨k, hk, l, hl, rfl⟩
    have hk' : k = 0 ∨ k = 1 ∨ k = 2 := by omega
    have hl' : l = 0 ∨ l = 1 := by omega
    rcases hk' with rfl | rfl | rfl
    · rcases hC.s0 with ⟨p, q⟩ | ⟨p, q⟩ <;> rcases hl' with rfl | rfl <;> simp [p, q]
    · rcases hC.s1 with ⟨p, q⟩ | ⟨p, q⟩ <;> rcases hl' with rfl | rfl <;> simp [p, q]
    · rcases hC.s2 with ⟨p, q⟩ | ⟨p, q⟩ <;> rcases hl' with rfl | rfl <;> simp [p, q]
  · rintro (rfl | rfl | rfl)
    · rcases hC.s1 with ⟨-, h⟩ | ⟨h, -⟩
      · exact ⟨1, by omega, 1, by omega, h⟩
      · exact ⟨1, by omega, 0, by omega, h⟩
    · rcases hC.s0 with ⟨h, -⟩ | ⟨-, h⟩
      · exact ⟨0, by omega, 0, by omega, h⟩
      · exact ⟨0, by omega, 1, by omega, h⟩
    · rcases hC.s1 with ⟨h, -⟩ | ⟨-, h⟩
      · exact ⟨1, by omega, 0, by omega, h⟩
      · exact ⟨1, by omega, 1, by omega, h⟩

theorem tup_lt {v : Nat × Nat × Nat} {n : Nat} (h1 : v.1 < n) (h2 : v.2.1 < n) (h3 : v.2.2 < n) : ∀ i < 3, tup v i < n := by
  intro i hi
  unfold tup
  split
  · exact h1
  · split
    · exact h2
    · exact h3

theorem tup_iff {v : Nat × Nat × Nat} {w : Nat} : (∃ i < 3, tup v i = w) ↔ w = v.1 ∨ w = v.2.1 ∨ w = v.2.2 := by
  constructor
  · rintro ⟨i, hi, rfl⟩
    have : i = 0 ∨ i = 1 ∨ i = 2 := by omega
    rcases this with rfl | rfl | rfl
    · exact .inl rfl
    · exact .inr (.inl rfl)
    · exact .inr (.inr rfl)
  · rintro (rfl | rfl | rfl)
    · exact ⟨0, by omega, rfl⟩
    · exact ⟨1, by omega, rfl⟩
    · exact ⟨2, by omega, rfl⟩

theorem entry_zero {a : Sparse ℝ} (h : CSR a) (h0 : ∀ k < a.nz, a.coeff.v k = 0) {i : Nat} (hi : i < a.rows) (j : Nat) : entry a i j = 0 := by
  unfold entry
  refine Finset.sum_eq_zero fun k hk => ?_
  rw [Finset.mem_Ico] at hk
  rw [h0 k (Sparse.CSR.inRow_lt h hi hk)]
  simp

theorem buildMatrix_tot (hl : Legal m) {c : Nat → Nat × Nat × Nat} (hc : CornersAll m c) (hn : Numbered m dc) {fix : Bool} (h0 : 0 < dc.ndof) (h1 : 0 < ncols dc fix) (jc : Nat → Nat) (jx : Nat → ℝ) :
    Tot (buildMatrix jc jx dc fix) fun A => CSR A ∧ A.rows = dc.ndof ∧ A.cols = ncols dc fix ∧ (∀ i < dc.ndof, ∀ j, entry A i j = 0) ∧
      ∀ r < dc.ndof, ∀ k, HasPos A r k ↔ ∃ d < m.triangles, ∃ i < 3, ∃ j < 3, pos dc fix (tup (c d)) i j r k := by
  unfold buildMatrix
  refine Tot.bind (Pattern.new_tot h0 h1) fun sp _ hsp => ?_
  rw [hn.mesh]
  refine Tot.bind (P := Pattern.Holds dc.ndof (ncols dc fix) fun r k => ∃ d < m.triangles, ∃ i < 3, ∃ j < 3, pos dc fix (tup (c d)) i j r k)
    (forUp_tot (fun n sp => Pattern.Holds dc.ndof (ncols dc fix) (fun r k => ∃ d < n, ∃ i < 3, ∃ j < 3, pos dc fix (tup (c d)) i j r k) sp) (Nat.zero_le _) ?_ ?_) ?_
  · have e : (fun r k => ∃ d < 0, ∃ i < 3, ∃ j < 3, pos dc fix (tup (c d)) i j r k) = fun _ _ => False := by
      funext r k
      simp
    rw [e]
    exact hsp
  · intro n sp _ hd h
    rw [getVertices_eq hl hd (hc n hd), ok_bind]
    obtain ⟨q1, q2, q3⟩ := corners_lt hl hd (hc n hd)
    refine (addPairs_tot hn (tup_lt q1 q2 q3) h).mono fun sp' h' => ?_
    convert h' using 1
    funext r k
    refine propext ⟨?_, ?_⟩
    · rintro ⟨d, hd, hh⟩
      rcases Nat.lt_succ_iff_lt_or_eq.mp hd with hd | rfl
      · exact .inl ⟨d, hd, hh⟩
      · exact .inr hh
    · rintro (⟨d, hd, hh⟩ | hh)
      · exact ⟨d, by omega, hh⟩
      · exact ⟨n, by omega, hh⟩
  · intro sp _ h
    refine (Sparse.newZero_tot h jc jx).mono ?_
    rintro A ⟨a1, a2, a3, a4, a5, -⟩
    exact ⟨a1, a2, a3, fun i hi j => entry_zero a1 a5 (by omega) j, a4⟩

theorem vertsOf_eq (hl : Legal m) {d a b c : Nat} (hd : d < m.triangles) (hC : Corners m d a b c) :
    ∃ v0 v1, vertsOf m d = .ok (v0, v1, a) ∧ ((v0 = b ∧ v1 = c) ∨ (v0 = c ∧ v1 = b)) := by
  have h0 := hl.sides d hd 0 (by omega)
  have h1 := hl.sides d hd 1 (by omega)
  refine ⟨endp m (side m d 0) 0, endp m (side m d 0) 1, ?_, ?_⟩
  · unfold vertsOf
    have z0 : m.t.v (3 * d) = side m d 0 := rfl
    have z1 : m.t.v (3 * d + 1) = side m d 1 := rfl
    rw [Arr.get_ok (by have := hl.t; omega), ok_bind, Arr.get_ok (by have := hl.t; omega), ok_bind, z0, z1, Arr.get_ok (by have := hl.e; omega), ok_bind,
      Arr.get_ok (by have := hl.e; omega), ok_bind, Arr.get_ok (by have := hl.e; omega), ok_bind, Arr.get_ok (by have := hl.e; omega), ok_bind]
    show Except.ok (endp m (side m d 0) 0, endp m (side m d 0) 1, if endp m (side m d 1) 0 = endp m (side m d 0) 0 ∨ endp m (side m d 1) 0 = endp m (side m d 0) 1 then endp m (side m d 1) 1 else endp m (side m d 1) 0) = _
    have h3 := hC.ab
    have h4 := hC.ca
    rcases hC.s0 with ⟨p, q⟩ | ⟨p, q⟩ <;> rcases hC.s1 with ⟨p', q'⟩ | ⟨p', q'⟩ <;> rw [p, q, p', q']
    · rw [if_pos (.inr rfl)]
    · rw [if_neg (by omega)]
    · rw [if_pos (.inl rfl)]
    · rw [if_neg (by omega)]
  · rcases hC.s0 with ⟨p, q⟩ | ⟨p, q⟩
    · exact .inl ⟨p, q⟩
    · exact .inr ⟨p, q⟩

theorem coord_eq (hs : Sized m) {v : Nat} (hv : v < m.vertices) : coord m v = .ok (pt m v) := by
  unfold coord
  rw [Arr.get_ok (by have := hs.x; omega), ok_bind, Arr.get_ok (by have := hs.x; omega), ok_bind]
  rfl

open Classical in
/-- the contribution of an element -/
noncomputable def contrib (dc : Disc) (fix : Bool) (xt : Nat → Nat) (At : Nat → Nat → ℝ) (r c : Nat) : ℝ :=
  ∑ i ∈ Finset.range 3, ∑ j ∈ Finset.range 3, if pos dc fix xt i j r c then At i j else 0

open Classical in
theorem addElement_tot (hn : Numbered m dc) {fix : Bool} {xt : Nat → Nat} (hx : ∀ i < 3, xt i < m.vertices) (At : Nat → Nat → ℝ) {A : Sparse ℝ} (hA : CSR A) (hr : A.rows = dc.ndof)
    (hp : ∀ i < 3, ∀ j < 3, ∀ r c, pos dc fix xt i j r c → HasPos A r c) :
    Tot (addElement dc fix xt At A) fun B => Sparse.SamePattern A B ∧ ∀ r < dc.ndof, ∀ c, entry B r c = entry A r c + contrib dc fix xt At r c := by
  unfold addElement contrib
  refine forUp_tot (fun k (B : Sparse ℝ) => Sparse.SamePattern A B ∧ ∀ r < dc.ndof, ∀ c, entry B r c = entry A r c +
    ∑ i ∈ Finset.range k, ∑ j ∈ Finset.range 3, if pos dc fix xt i j r c then At i j else 0) (Nat.zero_le _) ⟨⟨rfl, rfl, rfl, rfl, rfl, rfl⟩, fun r _ c => by simp⟩ ?_
  rintro k B - hk ⟨b1, b2⟩
  have hxk := hx k hk
  rw [Arr.get_ok (by rw [hn.nd]; exact hxk), ok_bind]
  by_cases hb : dc.isDof.v (xt k) = true
  · rw [if_pos hb, Arr.get_ok (by rw [hn.ni]; exact hxk), ok_bind]
    have hi := idx_lt hn hxk
    rw [if_pos hb] at hi
    refine Tot.cassert (by simp [hi]) ?_
    refine (forUp_tot (fun l (C : Sparse ℝ) => Sparse.SamePattern A C ∧ ∀ r < dc.ndof, ∀ c, entry C r c = (entry A r c +
      ∑ i ∈ Finset.range k, ∑ j ∈ Finset.range 3, if pos dc fix xt i j r c then At i j else 0) + ∑ j ∈ Finset.range l, if pos dc fix xt k j r c then At k j else 0) (Nat.zero_le _)
      ⟨b1, fun r hr c => by rw [b2 r hr c]; simp⟩ ?_).mono ?_
    · rintro l C - hl ⟨c1, c2⟩
      have hxl := hx l hl
      rw [Arr.get_ok (by rw [hn.nd]; exact hxl), ok_bind]
      by_cases hc : dc.isDof.v (xt l) = !fix
      · rw [if_pos hc, Arr.get_ok (by rw [hn.ni]; exact hxl), ok_bind]
        have hj := col_lt hn hxl hc
        refine Tot.cassert (by cases fix; rfl; simpa [ncols] using hj) ?_
        have hpos := hp k hk l hl _ _ ⟨hb, hc, rfl, rfl⟩
        refine Tot.bind (Sparse.addentry_tot (Sparse.SamePattern.csr c1 hA) ((Sparse.SamePattern.hasPos c1 _ _).mpr hpos) (At k l)) ?_
        rintro ⟨D, x⟩ - ⟨d1, -, d3⟩
        refine Tot.pure ⟨Sparse.SamePattern.trans c1 d1, fun r hr' c => ?_⟩
        rw [d3 r (by rw [c1.rows, hr]; exact hr') c, c2 r hr' c, Finset.sum_range_succ]
        by_cases e : r = dc.idx.v (xt k) ∧ c = dc.idx.v (xt l)
        · rw [if_pos e, if_pos ⟨hb, hc, e.1, e.2⟩]; ring
        · rw [if_neg e, if_neg (fun h => e ⟨h.2.2.1, h.2.2.2⟩)]; ring
      · rw [if_neg hc]
        refine Tot.pure ⟨c1, fun r hr' c => ?_⟩
        rw [c2 r hr' c, Finset.sum_range_succ, if_neg (fun h => hc h.2.1), add_zero]
    · rintro C ⟨c1, c2⟩
      refine ⟨c1, fun r hr' c => ?_⟩
      rw [c2 r hr' c, Finset.sum_range_succ _ k]
      ring
  · rw [if_neg hb]
    refine Tot.pure ⟨b1, fun r hr' c => ?_⟩
    rw [b2 r hr' c, Finset.sum_range_succ _ k, Finset.sum_eq_zero (s := Finset.range 3) (f := fun j => if pos dc fix xt k j r c then At k j else 0) (fun j _ => if_neg (fun h => hb h.1)), add_zero]

/-- a matrix together with the sum of the contributions of the first triangles -/
def Summed (dc : Disc) (fix : Bool) (w : Nat → Nat × Nat × Nat) (At : Nat → Nat → Nat → ℝ) (A : Sparse ℝ) (n : Nat) (B : Sparse ℝ) : Prop :=
  Sparse.SamePattern A B ∧ ∀ r < dc.ndof, ∀ c, entry B r c = entry A r c + ∑ d ∈ Finset.range n, contrib dc fix (tup (w d)) (At d) r c

def SummedOpt (dc : Disc) (w : Nat → Nat × Nat × Nat) (At : Nat → Nat → Nat → ℝ) (A : Option (Sparse ℝ)) (n : Nat) (B : Option (Sparse ℝ)) : Prop :=
  match A with
  | none => B = none
  | some A => ∃ B', B = some B' ∧ Summed dc true w At A n B'

theorem assemble_tot (hl : Legal m) {c w : Nat → Nat × Nat × Nat} (hc : CornersAll m c) (hn : Numbered m dc)
    (hw : ∀ d < m.triangles, vertsOf m d = .ok (w d) ∧ (w d).2.2 = (c d).1 ∧ (((w d).1 = (c d).2.1 ∧ (w d).2.1 = (c d).2.2) ∨ ((w d).1 = (c d).2.2 ∧ (w d).2.1 = (c d).2.1)))
    {elem : ℝ × ℝ → ℝ × ℝ → ℝ × ℝ → R (Nat → Nat → ℝ)} {At : Nat → Nat → Nat → ℝ} (he : ∀ d < m.triangles, elem (pt m (w d).1) (pt m (w d).2.1) (pt m (w d).2.2) = .ok (At d))
    {A : Sparse ℝ} (hA : CSR A) (hr : A.rows = dc.ndof) (hp : ∀ d < m.triangles, ∀ i < 3, ∀ j < 3, ∀ r k, pos dc false (tup (w d)) i j r k → HasPos A r k)
    {Af : Option (Sparse ℝ)} (hf : ∀ B, Af = some B → CSR B ∧ B.rows = dc.ndof ∧ ∀ d < m.triangles, ∀ i < 3, ∀ j < 3, ∀ r k, pos dc true (tup (w d)) i j r k → HasPos B r k) :
    Tot (assemble elem dc A Af) fun s => Summed dc false w At A m.triangles s.1 ∧ SummedOpt dc w At Af m.triangles s.2 := by
  unfold assemble
  rw [hn.mesh]
  refine forUp_tot (fun n (s : Sparse ℝ × Option (Sparse ℝ)) => Summed dc false w At A n s.1 ∧ SummedOpt dc w At Af n s.2) (Nat.zero_le _) ⟨⟨⟨rfl, rfl, rfl, rfl, rfl, rfl⟩, fun r _ k => by simp⟩, ?_⟩ ?_
  · cases Af with
    | none => rfl
    | some B => exact ⟨B, rfl, ⟨rfl, rfl, rfl, rfl, rfl, rfl⟩, fun r _ k => by simp⟩
  rintro d ⟨B, Bf⟩ - hd ⟨⟨b1, b2⟩, bf⟩
  obtain ⟨w1, w2, w3⟩ := hw d hd
  obtain ⟨q1, q2, q3⟩ := corners_lt hl hd (hc d hd)
  have n1 := (hc d hd).ab
  have n2 := (hc d hd).bc
  have n3 := (hc d hd).ca
  have v1 : (w d).1 < m.vertices := by rcases w3 with ⟨e, -⟩ | ⟨e, -⟩ <;> rw [e] <;> assumption
  have v2 : (w d).2.1 < m.vertices := by rcases w3 with ⟨-, e⟩ | ⟨-, e⟩ <;> rw [e] <;> assumption
  have v3 : (w d).2.2 < m.vertices := by rw [w2]; exact q1
  rw [w1, ok_bind]
  refine Tot.cassert ?_ ?_
  · simp only [decide_eq_true_eq]
    rw [w2]
    rcases w3 with ⟨e, e'⟩ | ⟨e, e'⟩ <;> rw [e, e']
    · exact ⟨n2, n1.symm, n3⟩
    · exact ⟨n2.symm, n3, n1.symm⟩
  rw [coord_eq hl.toSized v1, ok_bind, coord_eq hl.toSized v2, ok_bind, coord_eq hl.toSized v3, ok_bind, he d hd, ok_bind]
  have hx := tup_lt v1 v2 v3
  refine Tot.bind (addElement_tot hn hx (At d) (Sparse.SamePattern.csr b1 hA) (b1.rows.trans hr) fun i hi j hj r k h => (Sparse.SamePattern.hasPos b1 _ _).mpr (hp d hd i hi j hj r k h)) ?_
  rintro C - ⟨c1, c2⟩
  refine Tot.bind (P := SummedOpt dc w At Af (d + 1)) ?_ ?_
  · cases Af with
    | none =>
      rw [show Bf = none from bf]
      exact Tot.pure rfl
    | some A0 =>
      obtain ⟨B', rfl, e1, e2⟩ := bf
      obtain ⟨f1, f2, f3⟩ := hf A0 rfl
      refine Tot.bind (addElement_tot hn hx (At d) (Sparse.SamePattern.csr e1 f1) (e1.rows.trans f2) fun i hi j hj r k h => (Sparse.SamePattern.hasPos e1 _ _).mpr (f3 d hd i hi j hj r k h)) ?_
      rintro D - ⟨d1, d2⟩
      refine Tot.pure ⟨D, rfl, Sparse.SamePattern.trans e1 d1, fun r hr' k => ?_⟩
      rw [d2 r hr' k, e2 r hr' k, Finset.sum_range_succ]
      ring
  · intro Cf _ hCf
    refine Tot.pure ⟨⟨Sparse.SamePattern.trans b1 c1, fun r hr' k => ?_⟩, hCf⟩
    rw [c2 r hr' k, b2 r hr' k, Finset.sum_range_succ]
    ring

end H2.P1
